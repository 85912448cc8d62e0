#!/usr/bin/env python3
"""Regenerates MANIFEST.json: collects the theorems named Cnn_... from lean/Verif/Props and adds status and note."""
import json, re, glob, os
root = os.path.dirname(os.path.dirname(os.path.abspath(__file__)))
thms = {}
for f in sorted(glob.glob(root + '/lean/Verif/Props/*.lean')):
    for m in re.finditer(r'^theorem (C\d\d\w*)', open(f).read(), re.M):
        thms.setdefault(m.group(1)[:3], []).append('KompareDiff2.' + m.group(1))
notes = json.load(open(root + '/tools/notes.json'))
claims = []
for line in open(root + '/properties.jsonl'):
    i = json.loads(line)['id']
    if i not in thms: continue
    n = notes.get(i, {})
    claims.append({"property": i, "status": n.get("status", "proved"), "theorems": thms[i], "note": n.get("note", "")})
json.dump({"claims": claims}, open(root + '/MANIFEST.json', 'w'), indent=1)
print(len(claims), "claims;", [i for i in [json.loads(l)['id'] for l in open(root + '/properties.jsonl')] if i not in thms], "missing")
names = [t for c in claims for t in c["theorems"]]
with open(root + '/lean/Verif/Axioms.lean', 'w') as f:
    f.write('/-\nThe axioms of every property theorem (generated by tools/manifest.py).\n-/\n')
    mods = sorted('Verif.Props.' + os.path.basename(x)[:-5] for x in glob.glob(root + '/lean/Verif/Props/*.lean'))
    text = ''.join('import %s\n' % m for m in mods) + '/-\nThe axioms of every property theorem (generated by tools/manifest.py).\n-/\n'
    f.seek(0); f.truncate(); f.write(text + ''.join('#print axioms %s\n' % n for n in names))
