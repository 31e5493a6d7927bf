"""Mechanical edits of the definitions of the model: usage auto_mutants.py OUT.jsonl PER_DEFINITION SEED"""
import glob, json, os, random, re, sys
root = os.path.dirname(os.path.dirname(os.path.abspath(__file__)))
out, per, seed = sys.argv[1], int(sys.argv[2]), int(sys.argv[3])
rng = random.Random(seed)
RULES = [
 (r' < ', ' ≤ ', 'strict comparison made weak'), (r' ≤ ', ' < ', 'weak comparison made strict'),
 (r' \+ ', ' - ', '+ becomes -'), (r' - ', ' + ', '- becomes +'), (r' \* ', ' + ', '* becomes +'), (r' / ', ' * ', '/ becomes *'),
 (r'\(· \+ ·\)', '(· - ·)', 'sum becomes difference'), (r'\(· - ·\)', '(· + ·)', 'difference becomes sum'), (r'\(· \* ·\)', '(· + ·)', 'product becomes sum'),
 (r'\btrue\b', 'false', 'true becomes false'), (r'\bfalse\b', 'true', 'false becomes true'),
 (r'(?<![\w.\[])0(?![\w.])', '1', '0 becomes 1'), (r'(?<![\w.])1(?![\w.])', '0', '1 becomes 0'), (r'(?<![\w.])1(?![\w.])', '2', '1 becomes 2'), (r'(?<![\w.])2(?![\w.])', '3', '2 becomes 3'),
 (r' && ', ' || ', 'and becomes or'), (r' \|\| ', ' && ', 'or becomes and'), (r' ∧ ', ' ∨ ', 'and becomes or'), (r' ∨ ', ' ∧ ', 'or becomes and'),
 (r' = ', ' ≠ ', 'equality negated'), (r' ≠ ', ' = ', 'inequality negated'), (r' == ', ' != ', 'equality negated'), (r' != ', ' == ', 'inequality negated'),
 (r'\.reverse\b', '', 'reverse dropped'), (r' \+ 1\b', '', '+ 1 dropped'), (r' - 1\b', '', '- 1 dropped'),
 (r'\.error \.valueError', '.error .typeError', 'another exception'), (r'\.error \.typeError', '.error .valueError', 'another exception'),
 (r'\.error \.invalidArgument', '.error .valueError', 'another exception'), (r'\.error \.indexError', '.error .valueError', 'another exception'), (r'\.error \.nonFinite', '.error .valueError', 'another exception'),
 (r'\bmax\b', 'min', 'max becomes min'), (r'\bmin\b', 'max', 'min becomes max'), (r'\bsome (\w+)\b', 'none', 'some becomes none'),
 (r'List\.range (\w+(\.\w+)*)', r'(List.range \1).tail', 'first index skipped'), (r'List\.range (\w+(\.\w+)*)', r'(List.range \1).dropLast', 'last index skipped'),
 (r'List\.range (\w+(\.\w+)*)', r'(List.range \1).reverse', 'indices in reverse order'),
 (r'\b(\w+) (\w+)\)', r'\2 \1)', 'arguments swapped'), (r'\btake\b', 'drop', 'take becomes drop'), (r'\bdrop\b', 'take', 'drop becomes take'),
 (r'\[(\w+), (\w+)\]', r'[\2, \1]', 'entries swapped'), (r' \+\+ ', None, 'operands of ++ swapped'),
 (r'\.1\b', '.2', 'first component becomes second'), (r'\.2\b', '.1', 'second component becomes first'),
]
M = []
for f in sorted(glob.glob(root + '/lean/Verif/Model/*.lean')):
    s = open(f).read()
    # blank comments, keeping positions
    t = re.sub(r'/-.*?-/|--[^\n]*', lambda m: re.sub(r'[^\n]', '\0', m.group()), s, flags=re.S)
    defs = [(m.start(), m.group(2)) for m in re.finditer(r'^(?:@\[[^\]]*\] )?(?:noncomputable |protected |private )*(def|instance|abbrev) ?(\S*)', t, re.M)]
    ends = [m.start() for m in re.finditer(r'^\S', t, re.M)]
    for a, name in defs:
        b = min([e for e in ends if e > a and t[e] not in '|'] + [len(t)])
        body = t[a:b]
        k = re.search(r':=|\bwhere\b|\n\s*\|', body)
        if not k: continue
        cand = []
        for pat, rep, what in RULES:
            for m in re.finditer(pat, body[k.end():]):
                p = a + k.end() + m.start(); q = a + k.end() + m.end()
                if '\0' in t[p:q]: continue
                if rep is None: continue
                new = re.sub(pat, rep, t[p:q], count=1) if '\\' in rep else rep
                if new == t[p:q]: continue
                cand.append((p, q, new, what))
        # dropped statements
        for m in re.finditer(r'^  +let (\w+) ← [^\n]*\n', body, re.M):
            p = a + m.start(); q = a + m.end()
            if len(re.findall(r'\b%s\b' % m.group(1), t[a:p])) > 0: cand.append((p, q, '', 'statement dropped'))
        rng.shuffle(cand)
        for i, (p, q, new, what) in enumerate(cand[:per]):
            # context that makes the pattern unique
            w = 0
            while True:
                u = max(0, p - w); v = min(len(s), q + w)
                if s.count(s[u:v]) == 1: break
                w += 5
            M.append(dict(id=f'auto{seed}-{os.path.basename(f)[:-5]}-{name}-{p}', file='Model/' + os.path.basename(f), definition=name,
                          edit=what + ': ' + s[s.rfind('\n', 0, p) + 1:s.find('\n', p)].strip()[:160], claim='mechanical edit', old=s[u:v], new=s[u:p] + new + s[q:v]))
rng.shuffle(M)
open(out, 'w').write(''.join(json.dumps(x, ensure_ascii=False) + '\n' for x in M))
print(len(M))
