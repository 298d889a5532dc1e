#!/usr/bin/env python3
"""Regenerates the generated sections of DESIGN.md from the model files and MANIFEST.json."""
import glob, json, re
root = '/verif/'
p = root + 'DESIGN.md'
s = open(p).read()
mark = '<!-- generated by tools/design.py -->'
if mark in s:
    s = s[:s.index(mark)].rstrip() + '\n'
out = [mark, '', '## What is modelled', '',
       'One entry per model file; the line numbers are at each definition. What a file does not say it models is not modelled.', '']
for f in sorted(glob.glob(root + 'lean/Verif/Model/*.lean')):
    t = open(f).read()
    m = re.search(r'/-!(.*?)-/', t, re.S)
    doc = ' '.join(m.group(1).split()) if m else 'Results of calls: a value, a raised exception or undefined behaviour.'
    out.append(f"* `{f[len(root)+5:]}`: {doc}")
out += ['', '## Where the code and the property disagree', '',
        'Each is a theorem about the model with concrete inputs (the theorems of the claim that state it are listed in MANIFEST.json), next to a `_partial` theorem for the rest.', '']
claims = json.load(open(root + 'MANIFEST.json'))['claims']
props = {json.loads(l)['id']: json.loads(l)['title'] for l in open(root + 'properties.jsonl') if l.strip()}
for c in claims:
    if c['status'] == 'partial':
        out.append(f"* **{c['property']} {props[c['property']]}**: {c['note']}")
done = {c['property'] for c in claims}
rest = [k for k in props if k not in done]
out += ['', '## Not modelled', '',
        'Memory allocation failure, reference counts and freeing (except in `RamDir` and `HashSet`, where a use of freed memory is undefined behaviour), floating point rounding (scores are an abstract arithmetic unless stated), threads (except the lock clients), the Ruby binding, the analysers and stemmers, the query parser.']
if rest:
    out += ['', 'Properties without a theorem yet: ' + ', '.join(rest) + '.']
open(p, 'w').write(s + '\n' + '\n'.join(out) + '\n')
