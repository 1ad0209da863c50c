#!/usr/bin/env python3
"""note.py ID NOTE [STATUS]: set the manifest note of a property."""
import json, os, sys
f = os.path.join(os.path.dirname(os.path.abspath(__file__)), 'notes.json')
d = json.load(open(f))
e = {}
if len(sys.argv) > 3:
    e['status'] = sys.argv[3]
e['note'] = sys.argv[2]
d[sys.argv[1]] = e
with open(f, 'w') as out:
    out.write('{\n' + ',\n'.join(' %s: %s' % (json.dumps(k), json.dumps(d[k], ensure_ascii=False)) for k in sorted(d)) + '\n}\n')
