"""Collect the property theorems (names Cnn_...) from lean/Verif/Props into MANIFEST.json."""
import json, re, glob, os
root = os.path.dirname(os.path.dirname(os.path.abspath(__file__)))
notes = json.load(open(os.path.join(root, 'tools', 'claims.json')))
thms = {}
for path in sorted(glob.glob(os.path.join(root, 'lean/Verif/Props/*.lean'))):
    ns = []
    for line in open(path):
        m = re.match(r'namespace (\S+)', line)
        if m: ns.append(m.group(1))
        m = re.match(r'end (\S+)', line)
        if m and ns and m.group(1) == ns[-1]: ns.pop()
        m = re.match(r'(?:protected )?theorem (C(\d+)_\S+)', line)
        if m: thms.setdefault('C' + m.group(2), []).append('.'.join(ns + [m.group(1)]))
ids = [json.loads(l)['id'] for l in open(os.path.join(root, 'properties.jsonl'))]
claims = []
for i in ids:
    if i not in thms and i not in notes:
        print('no theorem yet:', i); continue
    n = notes.get(i, {})
    status = n.get('status', 'proved' if i in thms else 'not_applicable')
    claims.append({'property': i, 'status': status, 'theorems': thms.get(i, []), 'note': n.get('note', '')})
for i in thms:
    if i not in ids: print('theorem without property:', i)
json.dump({'claims': claims}, open(os.path.join(root, 'MANIFEST.json'), 'w'), indent=1, ensure_ascii=False)
print(len(claims), 'claims', sum(len(c['theorems']) for c in claims), 'theorems')
