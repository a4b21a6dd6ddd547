#!/bin/sh
# Lists the axioms of every claim theorem into tools/axioms.txt. Run from /verif after a build.
python3 - <<'P'
import json,subprocess,re
names=[x for c in json.load(open('MANIFEST.json'))['claims'] for x in c['theorems']]
open('/tmp/ax.lean','w').write('import Verif\n'+''.join(f'#print axioms {n}\n' for n in names))
o=subprocess.run(['lake','env','lean','/tmp/ax.lean'],cwd='lean',capture_output=True,text=True).stdout
o=re.sub(r'\n\s+',' ',o)
open('tools/axioms.txt','w').write(re.sub(r"^'([^']*)' (?:depends on axioms: \[(.*)\]|does not depend on any axioms)$",lambda m:f'{m.group(1)}: {m.group(2) or "none"}',o,flags=re.M))
P
