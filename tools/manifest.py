#!/usr/bin/env python3
"""Regenerate MANIFEST.json from the theorem names in lean/Verif/Props and the notes in tools/notes.json."""
import json, re, glob, os
root = os.path.dirname(os.path.dirname(os.path.abspath(__file__)))
notes = json.load(open(os.path.join(root, 'tools', 'notes.json')))
props = [json.loads(l) for l in open(os.path.join(root, 'properties.jsonl')) if l.strip()]
thms = {}
for fn in sorted(glob.glob(os.path.join(root, 'lean/Verif/Props/*.lean'))):
    ns = []
    for line in open(fn):
        m = re.match(r'namespace (\S+)', line)
        if m: ns.append(m.group(1))
        m = re.match(r'end (\S+)', line)
        if m and ns and ns[-1] == m.group(1): ns.pop()
        m = re.match(r'theorem (C\d+)(_\S*)', line)
        if m: thms.setdefault(m.group(1), []).append('.'.join(ns) + '.' + m.group(1) + m.group(2))
claims = []
for p in props:
    t = thms.get(p['id'], [])
    n = notes.get(p['id'], {})
    status = n.get('status') or ('not_applicable' if not t else 'partial' if any('_partial' in x or '_violated' in x for x in t) else 'proved')
    claims.append({'property': p['id'], 'status': status, 'theorems': t, 'note': n.get('note', '')})
with open(os.path.join(root, 'MANIFEST.json'), 'w') as f:
    f.write('{"claims": [\n' + ',\n'.join(json.dumps(c) for c in claims) + '\n]}\n')
print(sum(c['status'] == 'proved' for c in claims), 'proved', sum(c['status'] == 'partial' for c in claims), 'partial',
      [c['property'] for c in claims if not c['theorems']])
