#!/usr/bin/env python3
"""Writes DESIGN.md from design_head.md, properties, manifest and the Lean sources. Run from /verif."""
import re, glob, json
head = open('tools/design_head.md').read()
props = [json.loads(l) for l in open('properties.jsonl')]
man = {c['property']: c for c in json.load(open('MANIFEST.json'))['claims']}
where, docs = {}, {}
for fn in sorted(glob.glob('lean/Verif/*/*.lean')):
    t = open(fn).read()
    for m in re.finditer(r'(?:/--((?:(?!-/).)*?)-/\s*)?theorem (?:\w+\.)*(C\d\d+_\w+)', t, re.S):
        where.setdefault(m.group(2).split('_')[0], set()).add(fn[len('lean/Verif/'):-5])
        if 'refuted' in m.group(2):
            docs[m.group(2)] = ' '.join((m.group(1) or '').split())
out = head.rstrip() + '\n\n## Properties\n\n| Id | Title | Status | Where | Remarks |\n|---|---|---|---|---|\n'
for p in props:
    c = man[p['id']]
    out += f"| {p['id']} | {p['title']} | {c['status']} | {', '.join(sorted(where.get(p['id'], [])))} | {c['note'].replace('|', '/')} |\n"
out += '\n## Disagreements between code and properties\n\nEach is a theorem; the C++ lines are cited at the definitions it uses.\n\n'
for k in sorted(docs):
    out += f'* `{k}`: {docs[k]}\n'
out += '\n' + open('tools/design_tail.md').read()
open('DESIGN.md', 'w').write(out)
