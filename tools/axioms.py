#!/usr/bin/env python3
"""Print, for every theorem named in MANIFEST.json, the axioms it depends on (grouped).  Needs a finished `lake build`."""
import json, subprocess, re, tempfile, collections
names = []
for c in json.load(open('/verif/MANIFEST.json'))['claims']:
    for t in c['theorems']:
        if t not in names: names.append(t)
src = 'import Verif\n' + ''.join(f'#print axioms {n}\n' for n in names)
f = tempfile.NamedTemporaryFile('w', suffix='.lean', delete=False); f.write(src); f.close()
out = subprocess.run(['lake', 'env', 'lean', f.name], cwd='/verif/lean', capture_output=True, text=True).stdout
out = re.sub(r'\s+', ' ', out)
groups = collections.OrderedDict()
for n in names:
    m = re.search(r"'%s' (does not depend on any axioms|depends on axioms: \[([^\]]*)\])" % re.escape(n), out)
    key = '???' if not m else (m.group(2) or 'none')
    groups.setdefault(key, []).append(n)
for k in sorted(groups, key=lambda k: -len(groups[k])):
    print(f'* `{k}` ({len(groups[k])}): ' + ', '.join(f'`{n}`' for n in groups[k]))
