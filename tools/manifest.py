#!/usr/bin/env python3
"""Regenerate MANIFEST.json from the theorem names in lean/Verif/Props and the notes in tools/notes.json."""
import glob, json, os, re
root = os.path.dirname(os.path.dirname(os.path.abspath(__file__)))
notes = json.load(open(os.path.join(root, 'tools/notes.json')))
thms = {}
for f in sorted(glob.glob(os.path.join(root, 'lean/Verif/Props/*.lean'))):
    src = open(f).read()
    for m in re.finditer(r'^theorem (C(\d\d\d?)_\w+)', src, re.M):
        thms.setdefault('C' + m.group(2), []).append('Verif.Props.' + m.group(1))
claims = []
for line in open(os.path.join(root, 'properties.jsonl')):
    p = json.loads(line)['id']
    n = notes.get(p, {})
    if p not in thms and 'status' not in n:
        continue
    claims.append({'property': p, 'status': n.get('status', 'proved'), 'theorems': thms.get(p, []),
                   'note': n.get('note', '')})
with open(os.path.join(root, 'MANIFEST.json'), 'w') as f:
    json.dump({'claims': claims}, f, indent=1, ensure_ascii=False)
    f.write('\n')
print(len(claims), 'claims', sum(len(c['theorems']) for c in claims), 'theorems')
