# Regenerates the table at the end of DESIGN.md from properties.jsonl and MANIFEST.json.
import json
props = [json.loads(l) for l in open('properties.jsonl')]
man = {c['property']: c for c in json.load(open('MANIFEST.json'))['claims']}
s = open('DESIGN.md').read()
mark = '## Status per property\n'
if mark in s:
    s = s[:s.index(mark)]
s = s.rstrip() + '\n\n' + mark + '\nGenerated by `tools/design.py` from `properties.jsonl` and `MANIFEST.json`.\n\n'
s += '| id | property | code | theorems (`Csn.Props.`) | status |\n|----|----------|------|----------|--------|\n'
for p in props:
    c = man[p['id']]
    th = ', '.join(t.split('.')[-1] for t in c['theorems'])
    s += f"| {p['id']} | {p['title']} | {', '.join(p['anchors'])} | {th} | {c['status']}. {c['note']} |\n"
open('DESIGN.md', 'w').write(s)
