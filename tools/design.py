"""Regenerate the per-property table of DESIGN.md from properties.jsonl, tools/plans.json and MANIFEST.json."""
import json, re
plans = json.load(open('/verif/tools/plans.json'))
st = {c['property']: c for c in json.load(open('/verif/MANIFEST.json'))['claims']}
rows = ['| id | property | status | what is modelled and how it is proved | what the theorems cover |', '|----|----------|--------|----|----|']
for l in open('/verif/properties.jsonl'):
    p = json.loads(l); i = p['id']
    if i not in plans: print('no plan', i)
    c = st.get(i, {'status': 'planned', 'note': ''})
    rows.append(f"| {i} | {p['title']} | {c['status']} | {plans.get(i, '')} | {c['note']} |")
s = open('/verif/DESIGN.md').read()
a, b = '<!-- table -->\n', '<!-- end table -->'
pre, rest = s.split(a); _, post = rest.split(b)
open('/verif/DESIGN.md', 'w').write(pre + a + '\n'.join(rows) + '\n' + b + post)
