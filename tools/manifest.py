"""Regenerates MANIFEST.json from the theorem names in lean/Verif/Props and the
status table below (run from /verif)."""
import json, re, glob
STATUS = json.load(open('tools/status.json'))
thms = {}
for f in sorted(glob.glob('lean/Verif/Props/**/*.lean', recursive=True)):
    ns = []
    for line in open(f):
        m = re.match(r'namespace (\S+)', line)
        if m: ns.append(m.group(1))
        m = re.match(r'end (\S+)', line)
        if m and ns and ns[-1] == m.group(1): ns.pop()
        m = re.match(r'(?:@\[[^\]]*\] )?theorem (C(\d\d+)_\S+)', line)
        if m:
            thms.setdefault('C' + m.group(2), []).append('.'.join(ns + [m.group(1)]))
claims = []
for line in open('properties.jsonl'):
    pid = json.loads(line)['id']
    st = STATUS.get(pid, {})
    if pid in thms:
        claims.append(dict(property=pid, status=st.get('status', 'proved'), theorems=thms[pid], note=st.get('note', '')))
    elif st.get('status') == 'not_applicable':
        claims.append(dict(property=pid, status='not_applicable', theorems=[], note=st['note']))
json.dump({'claims': claims}, open('MANIFEST.json', 'w'), indent=1)
print(len(claims), 'claims', sum(len(c['theorems']) for c in claims), 'theorems')
