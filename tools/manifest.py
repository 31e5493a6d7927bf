"""Write MANIFEST.json from the theorem names in lean/Verif/Props and the notes in tools/notes.json."""
import glob, json, os, re
root = os.path.dirname(os.path.dirname(os.path.abspath(__file__)))
props = [json.loads(l) for l in open(root + '/properties.jsonl') if l.strip()]
thms = {}
for f in sorted(glob.glob(root + '/lean/Verif/Props/*.lean')):
    ns = []
    for line in open(f):
        m = re.match(r'namespace (\S+)', line)
        if m: ns.append(m.group(1))
        m = re.match(r'end (\S+)', line)
        if m and ns and ns[-1] == m.group(1): ns.pop()
        m = re.match(r'theorem (C\d\d+)_(\S+)', line)
        if m: thms.setdefault(m.group(1), []).append('.'.join(ns) + '.' + m.group(1) + '_' + m.group(2))
notes = json.load(open(root + '/tools/notes.json'))
claims = []
for p in props:
    i = p['id']; t = thms.get(i, [])
    if not t: continue
    bad = any(x.endswith('_partial') or x.endswith('_false') for x in t)
    claims.append({'property': i, 'status': 'partial' if bad else 'proved', 'theorems': t,
                   'note': notes.get(i, p['title'])})
json.dump({'claims': claims}, open(root + '/MANIFEST.json', 'w'), indent=1)
print(len(claims), 'claims;', sum(c['status'] == 'proved' for c in claims), 'proved; missing',
      [p['id'] for p in props if p['id'] not in thms])
