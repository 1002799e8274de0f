"""Regenerates the generated tail of DESIGN.md (modules, findings) from the sources and properties.jsonl (run from /verif)."""
import json, re, glob
MARK = '<!-- generated below by tools/design.py -->'
s = open('DESIGN.md').read().split(MARK)[0].rstrip() + '\n\n' + MARK + '\n\n'
s += '## Model modules and what they cover\n\n'
for f in sorted(glob.glob('lean/Verif/Model/*.lean')):
    t = open(f).read()
    m = re.match(r'/-\n(.*?)-/', t, re.S)
    s += '* `%s`: %s\n' % (f.split('/')[-1], ' '.join(m.group(1).split()))
s += '\n## Defects and limits of the code, proved as theorems\n\nEach is stated next to the property it limits; the theorem names are in MANIFEST.json.\n\n'
for l in open('properties.jsonl'):
    d = json.loads(l)
    m = re.search(r'\((?:Defects?|Limits?)[^:]*: ?(.*)\)\s*$', d['statement'])
    if m: s += '* **%s** %s\n' % (d['id'], m.group(1))
open('DESIGN.md', 'w').write(s)
