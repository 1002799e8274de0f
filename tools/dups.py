"""Lists names declared in more than one module (run from /verif)."""
import re,glob,collections
d=collections.defaultdict(set)
for f in glob.glob('lean/Verif/**/*.lean',recursive=True):
    ns=[]
    for line in open(f):
        m=re.match(r'namespace (\S+)',line)
        if m: ns.append(m.group(1))
        m=re.match(r'end (\S+)',line)
        if m and ns and ns[-1]==m.group(1): ns.pop()
        m=re.match(r'(?:@\[[^\]]*\] )?(?:noncomputable )?(?:private )?(?:theorem|def|structure|inductive|lemma|abbrev) (\S+)',line)
        if m: d['.'.join(ns+[m.group(1)])].add(f)
for k,v in d.items():
    if len(v)>1: print(k,v)
