#!/usr/bin/env python3
"""Writes MANIFEST.json: collects theorems named Cxx_* from lean/Verif and merges the notes below."""
import glob, json, re, collections
from notes import NOTES
th = collections.defaultdict(list)
for f in sorted(glob.glob('lean/Verif/**/*.lean', recursive=True)):
    ns = []
    for line in open(f):
        if m := re.match(r'namespace (\S+)', line): ns.append(m[1])
        elif m := re.match(r'end (\S+)', line):
            if ns and ns[-1] == m[1]: ns.pop()
        elif m := re.match(r'(?:@\[.*?\] )?theorem ((C\d\d\d?)_\S+)', line):
            th[m[2]].append('.'.join(ns + [m[1]]))
ids = [json.loads(l)['id'] for l in open('properties.jsonl')]
claims = []
for i in ids:
    if i not in th: continue
    st, note = NOTES.get(i, ('MISSING', ''))
    if st == 'MISSING': print('no note for', i)
    if st == 'proved' and any(t.endswith('_partial') for t in th[i]): print('partial theorem in proved', i)
    claims.append({"property": i, "status": st if st != 'MISSING' else 'partial', "theorems": th[i], "note": note})
for i in th:
    if i not in ids: print('theorem for unlisted property', i)
json.dump({"claims": claims}, open('MANIFEST.json', 'w'), indent=1)
print(len(claims), 'claims', sum(len(c['theorems']) for c in claims), 'theorems; missing', [i for i in ids if i not in th])
