#!/usr/bin/env python3
"""claim.py ID STATUS thm1,thm2,... NOTE -- update MANIFEST.json and regenerate lean/Verif.lean."""
import json, sys, glob, os
root = os.path.dirname(os.path.dirname(os.path.abspath(__file__)))
path = os.path.join(root, 'MANIFEST.json')
m = json.load(open(path))
if len(sys.argv) > 4:
    pid, status, thms, note = sys.argv[1:5]
    m['claims'] = [c for c in m['claims'] if c['property'] != pid]
    m['claims'].append({"property": pid, "status": status,
        "theorems": ["Ferret.Props." + t for t in thms.split(',') if t], "note": note})
    m['claims'].sort(key=lambda c: c['property'])
json.dump(m, open(path, 'w'), indent=1, ensure_ascii=False)
open(path, 'a').write('\n')
mods = sorted(glob.glob(os.path.join(root, 'lean/Verif/Props/*.lean')))
with open(os.path.join(root, 'lean/Verif.lean'), 'w') as f:
    for p in mods:
        f.write('import Verif.Props.' + os.path.basename(p)[:-5] + '\n')
# make sure every claimed theorem is followed by a #print axioms in its module
for c in m['claims']:
    for t in c['theorems']:
        short = t.split('.')[-1]
        for p in mods:
            s = open(p).read()
            if ('theorem ' + short + ' ') in s or ('theorem ' + short + '\n') in s:
                line = '#print axioms ' + short + '\n'
                if line not in s:
                    i = s.rindex('end Ferret.Props')
                    open(p, 'w').write(s[:i] + line + s[i:])
                break
        else:
            print('theorem not found:', t)
