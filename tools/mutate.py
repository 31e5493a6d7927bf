"""Try the theorems on wrong programs.

usage: mutate.py WORKDIR MUTANTS.jsonl OUT.jsonl

Each mutant is {id, file, old, new, definition, edit, claim}.  For each one: take the last commit with its compiled
files, edit the model and build.  The declarations that no longer check are recorded; the build is stopped once a
property theorem depends on one of them (dependencies are those of the proofs in the unedited project).  If the
declarations that fail are used by no property theorem, they are taken out and the build goes on.
A mutant survives when the whole project builds.  Mutants already in OUT are skipped.
"""
import glob, json, os, re, selectors, shutil, signal, subprocess, sys, time
root = os.path.dirname(os.path.dirname(os.path.abspath(__file__)))
work, mutants, out = sys.argv[1:4]
work = work.rstrip('/')
base = work + '-base'  # the last commit, built
ENV = dict(os.environ, LEAN_NUM_THREADS=os.environ.get('LEAN_NUM_THREADS', '2'))
START = re.compile(r'^(@\[[^\]]*\] )?(private |protected |noncomputable |local )*(theorem|lemma|example|def|instance|structure|inductive|abbrev|class|variable|namespace|end|section|open|/--|/-!|omit|set_option|attribute)\b|^(/--|/-!)')
DUMP = r'''import Verif
open Lean Elab Command
run_cmd do
  let env ← getEnv
  let h ← IO.FS.Handle.mk "deps.txt" .write
  for (n, ci) in env.constants.map₁.toList do
    let some idx := env.getModuleIdxFor? n | continue
    let mod := env.header.moduleNames[idx.toNat]!
    unless mod.getRoot == `Verif do continue
    let used := (ci.type.getUsedConstants ++ ((ci.value? (allowOpaque := true)).map (·.getUsedConstants) |>.getD #[]))
    let r ← findDeclarationRanges? n
    let (a, b) := match r with | some r => (r.range.pos.line, r.range.endPos.line) | none => (0, 0)
    let used := used.filter fun u => match env.getModuleIdxFor? u with
      | some i => (env.header.moduleNames[i.toNat]!).getRoot == `Verif | none => false
    h.putStrLn s!"{n}\t{mod}\t{a}\t{b}\t{" ".intercalate (used.toList.map toString)}"
'''
head = None
def prepare():
    """the last commit, built, and the dependencies of its declarations"""
    global head, where, users, props
    h = subprocess.run(['git', '-C', root, 'rev-parse', 'HEAD'], capture_output=True, text=True).stdout.strip()
    if h == head: return
    os.makedirs(base, exist_ok=True)
    subprocess.run(f'rm -rf {base}/new && mkdir {base}/new && git -C {root} archive HEAD lean | tar -x -C {base}/new', shell=True, check=True)
    for f in ['lakefile.toml', 'lean-toolchain', 'Verif.lean', 'lake-manifest.json']:
        g = f'{base}/new/lean/{f}' if os.path.exists(f'{base}/new/lean/{f}') else f'{root}/lean/{f}'
        if os.path.exists(g): shutil.copy2(g, base)
    if not os.path.exists(base + '/.lake'): shutil.copytree(root + '/lean/.lake', base + '/.lake', symlinks=True)
    subprocess.run(f'rm -rf {base}/Verif && mv {base}/new/lean/Verif {base}/Verif', shell=True, check=True)
    p = subprocess.run(['lake', 'build'], cwd=base, env=ENV, capture_output=True, text=True)
    assert p.returncode == 0, p.stdout[-2000:]
    open(base + '/Dump.lean', 'w').write(DUMP)
    subprocess.run(['lake', 'env', 'lean', 'Dump.lean'], cwd=base, env=ENV, check=True)
    where, users = {}, {}
    for l in open(base + '/deps.txt'):
        n, mod, a, b, used = l.rstrip('\n').split('\t')
        where.setdefault(mod.replace('.', '/') + '.lean', []).append((int(a), int(b), n))
        for u in used.split(): users.setdefault(u, set()).add(n)
    props = {t for c in json.load(open(root + '/MANIFEST.json'))['claims'] for t in c['theorems']}
    head = h

def at(path, line):
    return [n for a, b, n in where.get(path, []) if a <= line <= b]

def dependents(names):
    seen, todo = set(names), list(names)
    while todo:
        for u in users.get(todo.pop(), ()):
            if u not in seen: seen.add(u); todo.append(u)
    return sorted(p.split('.')[-1] for p in seen & props)

def build():
    """build until something fails; a few seconds later stop"""
    p = subprocess.Popen(['timeout', '3000', 'lake', 'build'], cwd=work, env=ENV, stdout=subprocess.PIPE, stderr=subprocess.STDOUT, start_new_session=True)
    os.set_blocking(p.stdout.fileno(), False)
    o, first = b'', None
    while True:
        d = p.stdout.read()
        if d: o += d
        if p.poll() is not None:
            d = p.stdout.read()
            if d: o += d
            break
        if first is None and re.search(rb'^error: Verif/', o, re.M): first = time.time()
        if first is not None and time.time() - first > 3:
            os.killpg(p.pid, signal.SIGKILL); p.wait(); break
        time.sleep(0.3)
    return (p.returncode if first is None else 1), o.decode(errors='replace')

def patch(path, lines):
    """sorry the declarations of `path` containing the given error lines"""
    t = open(path).read().split('\n')
    starts = [i for i, l in enumerate(t) if START.match(l)]
    ends = starts[1:] + [len(t)]
    bad, todo = [], {}
    for ln in lines:
        c = [(a, b) for a, b in zip(starts, ends) if a <= ln - 1 < b]
        if c and t[c[0][0]].startswith('/--'):
            c = [(a, b) for a, b in zip(starts, ends) if a == c[0][1]]
        if c: todo[c[0]] = True
    for a, b in sorted(todo, reverse=True):
        body = t[a:b]
        while body and body[-1].strip() == '': body.pop()
        text = '\n'.join(body)
        if not re.match(r'.*?(theorem|lemma|example|instance)\b', body[0]): bad.append(body[0]); continue
        if not re.match(r'.*?\binstance\b', body[0]):  # no proof term mentions it, but `simp` may use it: take it out
            t[a:b] = [f'theorem takenOut_{abs(hash(path)) % 10**6}_{a} : True := trivial'] + [''] * (b - a - 1)
            continue
        k, depth = None, 0
        for q in re.finditer(r'[(\[{⟨]|[)\]}⟩]|:=', text):
            if q.group() == ':=':
                if depth == 0 and not re.search(r'\b(let|have)\b[^\n]*$', text[:q.start()]): k = q; break
            else: depth += 1 if q.group() in '([{⟨' else -1
        alt = re.search(r'(?<!with)\n\s*\|.*=>', text)
        if alt and re.search(r'\bwith\n', text[:alt.start() + 1]): alt = None
        if k and not (alt and alt.start() < k.start()): new = text[:k.start()] + ':= by sorry'
        else:
            k = re.search(r'\n\s*\|', text)
            if not k: bad.append(body[0]); continue
            new = text[:k.start()] + ' := by sorry'
        if new == text: bad.append(body[0]); continue
        lines_new = new.split('\n')
        t[a:b] = lines_new + [''] * (b - a - len(lines_new))  # keep the line numbers
    open(path, 'w').write('\n'.join(t))
    return bad

def run(mu):
    prepare()
    subprocess.run(f'mkdir -p {work} && rm -rf {work}/Verif {work}/.lake && cp -a {base}/Verif {base}/.lake {base}/Verif.lean {base}/lakefile.toml {work}/ && (cp -a {base}/lean-toolchain {base}/lake-manifest.json {work}/ 2>/dev/null; true)', shell=True, check=True)
    f = f'{work}/Verif/{mu["file"]}'
    s = open(f).read()
    assert s.count(mu['old']) == 1, (mu['id'], s.count(mu['old']))
    open(f, 'w').write(s.replace(mu['old'], mu['new']))
    failed, stuck, hit = [], None, []
    for it in range(40):
        code, o = build()
        if code == 0: break
        errs = {}
        for m in re.finditer(r'^error: (Verif/\S+?\.lean):(\d+):\d+:', o, re.M):
            errs.setdefault(m.group(1), []).append(int(m.group(2)))
        if not errs: stuck = o[-600:]; break
        if 'Verif/' + mu['file'] in errs: stuck = 'the edited file: ' + o[o.find('error:'):][:400]; break
        names = [n for p, ls in errs.items() for l in ls for n in at(p, l)]
        failed += names
        hit = dependents(names)
        if hit: break
        bad = [b for p, ls in errs.items() for b in patch(f'{work}/{p}', ls)]
        if bad: stuck = str(bad) + o[-800:]; break
    return dict(mu, failed=sorted({n.split('.')[-1] for n in failed if '._' not in n}), stuck=stuck, props_failed=hit)

if __name__ == '__main__':
    done = {json.loads(l)['id'] for l in open(out)} if os.path.exists(out) else set()
    for l in list(open(mutants)):
        if not l.strip(): continue
        mu = json.loads(l)
        if mu['id'] in done: continue
        t0 = time.time()
        try: r = run(mu)
        except AssertionError as e: r = dict(mu, stuck='pattern ' + str(e), failed=[], props_failed=[])
        r['secs'] = int(time.time() - t0)
        open(out, 'a').write(json.dumps(r, ensure_ascii=False) + '\n')
        print(mu['id'], r['secs'], len(r['failed']), r['props_failed'][:4], len(r['props_failed']), ('STUCK ' + r['stuck'][:200]) if r['stuck'] else '', flush=True)
