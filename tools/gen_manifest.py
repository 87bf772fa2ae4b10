#!/usr/bin/env python3
"""Derive MANIFEST.json from the theorem names Cnn_* in lean/Verif/Props and tools/notes.json."""
import json, re, glob, os
root = os.path.dirname(os.path.dirname(os.path.abspath(__file__)))
thms = {}
for f in sorted(glob.glob(root + '/lean/Verif/Props/**/*.lean', recursive=True)):
    for m in re.finditer(r'^(?:protected |private )?theorem (C\d\d\w*?)(?=[\s:({\[])', open(f).read(), re.M):
        thms.setdefault(m.group(1)[:3], []).append('Planar.' + m.group(1))
notes = json.load(open(root + '/tools/notes.json'))
claims = []
missing = []
for l in open(root + '/properties.jsonl'):
    i = json.loads(l)['id']
    t = thms.get(i, [])
    if not t:
        missing.append(i); continue
    partial = any(x.endswith('_partial') for x in t)
    claims.append({"property": i, "status": "partial" if partial else "proved", "theorems": t,
                   "note": notes.get(i, "")})
json.dump({"claims": claims}, open(root + '/MANIFEST.json', 'w'), indent=1, ensure_ascii=False)
mods = sorted(os.path.relpath(f, root + '/lean')[:-5].replace('/', '.') for f in glob.glob(root + '/lean/Verif/**/*.lean', recursive=True))
open(root + '/lean/Verif.lean', 'w').write(''.join('import %s\n' % m for m in mods))
print('missing', missing, 'theorems', sum(len(c["theorems"]) for c in claims))
