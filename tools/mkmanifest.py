#!/usr/bin/env python3
"""Regenerate MANIFEST.json from the theorem names in lean/Verif/Props and the statuses in tools/status.json.
The note of a partial claim without one is made of what the comments of its partial and refuting theorems say."""
import json, re, glob, os
root = os.path.dirname(os.path.dirname(os.path.abspath(__file__)))
status = json.load(open(root + '/tools/status.json'))
ids = [json.loads(l)['id'] for l in open(root + '/properties.jsonl') if l.strip()]
thms, docs = {}, {}
for f in sorted(glob.glob(root + '/lean/Verif/Props/*.lean')):
    src = open(f).read()
    for m in re.finditer(r'(?:^/--((?:(?!-/).)*)-/\s*\n)?^theorem (C\d\d+)_(\w+)', src, re.M | re.S):
        name = '%s_%s' % (m.group(2), m.group(3))
        thms.setdefault(m.group(2), []).append('Verif.Props.' + name)
        docs[name] = re.sub(r'^C\d\d+(?: \([^)]*\))?: ', '', ' '.join((m.group(1) or '').split()))
claims = []
for i in ids:
    t = thms.get(i, [])
    st, note = status.get(i, [None, ''])
    if not t and st != 'not_applicable':
        continue
    part = [x.split('.')[-1] for x in t if x.endswith(('_partial', '_refuted'))]
    if st is None:
        st = 'partial' if part else 'proved'
    if st == 'partial' and not note:
        note = ' '.join('%s: %s' % (x, docs[x]) for x in part if docs[x])
    claims.append({'property': i, 'status': st, 'theorems': t, 'note': note})
json.dump({'claims': claims}, open(root + '/MANIFEST.json', 'w'), indent=1, ensure_ascii=False)
print(len(claims), 'claims;', sum(len(c['theorems']) for c in claims), 'theorems; missing:', [i for i in ids if i not in thms])
