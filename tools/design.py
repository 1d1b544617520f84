"""Writes the last section of DESIGN.md from properties.jsonl and MANIFEST.json."""
import json, os
root = os.path.join(os.path.dirname(os.path.abspath(__file__)), '..')
props = [json.loads(l) for l in open(os.path.join(root, 'properties.jsonl')) if l.strip()]
man = {c['property']: c for c in json.load(open(os.path.join(root, 'MANIFEST.json')))['claims']}
path = os.path.join(root, 'DESIGN.md')
mark = "(written by `tools/design.py` from `properties.jsonl` and `MANIFEST.json`)\n\n"
text = open(path).read()
text = text[:text.index(mark) + len(mark)]
for p in props:
    c = man.get(p['id'])
    text += "* **%s** %s" % (p['id'], p['title'])
    if c:
        text += " (%s). %s Theorems: %s." % (c['status'], c['note'], ', '.join('`%s`' % t.split('.')[-1] for t in c['theorems']))
    text += "\n"
open(path, 'w').write(text)
