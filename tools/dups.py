import re,glob,collections
d=collections.defaultdict(list)
for f in glob.glob('/verif/lean/Verif/**/*.lean',recursive=True):
    ns=[]
    for l in open(f):
        m=re.match(r'namespace (\S+)',l)
        if m: ns.append(m.group(1))
        m=re.match(r'end (\S+)',l)
        if m and ns and ns[-1]==m.group(1): ns.pop()
        m=re.match(r'(?:@\[[^\]]*\]\s*)?(?:private )?(?:noncomputable )?(?:theorem|def|abbrev|structure|inductive|lemma|instance) (\S+)',l)
        if m and 'private' not in l and m.group(1) not in (':','('): d['.'.join(ns)+'.'+m.group(1)].append(f)
for k,v in d.items():
    if len(v)>1: print(k,v)
