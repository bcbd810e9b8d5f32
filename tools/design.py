"""Write the generated part of DESIGN.md (per-property section and list of refuted expectations) from the sources."""
import json, re, glob, os
root = os.path.dirname(os.path.dirname(os.path.abspath(__file__)))
lean = os.path.join(root, 'lean')
def imports(path): return re.findall(r'^import (Verif\.\S+)', open(path).read(), re.M)
def models(path, seen=None):
    """Model files reached through imports that are not themselves property files or models."""
    seen = set() if seen is None else seen
    out = set()
    for m in imports(path):
        if m in seen: continue
        seen.add(m)
        if m.startswith('Verif.Model.'): out.add(m)
        else: out |= models(os.path.join(lean, m.replace('.', '/') + '.lean'), seen)
    return out
docs, where = {}, {}
for path in sorted(glob.glob(lean + '/Verif/Props/*.lean')):
    text = open(path).read()
    for m in re.finditer(r'(?:/--((?:(?!-/).)*)-/\s*)?(?:omit [^\n]* in\s*)?(?:set_option [^\n]* in\s*)?(?:/--((?:(?!-/).)*)-/\s*)?^(?:protected )?theorem (C\d+_\S+)', text, re.S | re.M):
        d = ' '.join((m.group(2) or m.group(1) or '').split())
        docs[m.group(3)] = re.sub(r'^(\*\*)?C\d+( \(([^)]*)\))?[.:,]?(\*\*)?[.:,]? *', lambda m: '(' + m.group(3) + ') ' if m.group(3) else '', d)
        where[m.group(3)] = path
props = [json.loads(l) for l in open(os.path.join(root, 'properties.jsonl'))]
props.sort(key=lambda p: int(p['id'][1:]))
claims = {c['property']: c for c in json.load(open(os.path.join(root, 'MANIFEST.json')))['claims']}
approach = json.load(open(os.path.join(root, 'tools', 'approach.json')))
out, refuted, missing = [], [], []
for p in props:
    c = claims[p['id']]
    names = [t.split('.')[-1] for t in c['theorems']]
    files = sorted({where[n] for n in names})
    used = sorted({m.split('.')[-1] for f in files for m in models(f)} - {'Basic'})
    out.append(f"### {p['id']} {p['title']} ({c['status']})\n")
    out.append(f"Code: {', '.join('`' + a.replace('src/polykin/', '') + '`' for a in p['anchors'])}. "
               f"Model: {', '.join('`Model/' + m + '.lean`' for m in used)}. "
               f"Proofs: {', '.join('`Props/' + os.path.basename(f) + '`' for f in files)}.\n")
    if p['id'] in approach: out.append(approach[p['id']] + '\n')
    for n in names:
        if not docs[n]: missing.append(n)
        out.append(f"* `{n}`" + (f" – {docs[n]}" if docs[n] else ''))
        if '_false' in n or 'wrong' in n or 'collapses' in n: refuted.append(f"* `{n}` ({p['id']}) – {docs[n]}")
    out.append('')
    if c['note']: out.append('Note: ' + c['note'] + '\n')
f = os.path.join(root, 'DESIGN.md')
s = open(f).read()
mark = '<!-- generated by tools/design.py; do not edit below -->'
s = s.split(mark)[0].rstrip() + '\n\n' + mark + '\n\n## Expectations refuted by proof\n\n' + '\n'.join(refuted) + '\n\n## Properties\n\n' + '\n'.join(out)
open(f, 'w').write(s.rstrip() + '\n')
print(len(props), 'properties', len(refuted), 'refuted', 'no docstring:', missing)
