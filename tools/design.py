"""Rewrites the generated parts of DESIGN.md: functions of /repo with the model files that cite them, axioms of theorems."""
import re, ast, glob, os, collections, json, subprocess, sys
cited = collections.defaultdict(lambda: collections.defaultdict(set))
for f in sorted(glob.glob('/verif/lean/Verif/Model/*.lean') + ['/verif/lean/Verif/Basic/Vec.lean']):
    s = open(f).read()
    mod = os.path.basename(f)[:-5]
    last = None
    head = s.find('namespace')
    for m in re.finditer(r'([\w/]+\.py)?:(\d+)(?:-(\d+))?((?:, ?:?\d+(?:-\d+)?)*)', s):
        name = m.group(1) or last
        if name is None: continue
        last = name
        if m.start() < head: continue
        base = os.path.basename(name)
        a = int(m.group(2)); b = int(m.group(3) or a)
        for l in range(a, b + 1): cited[base][l].add(mod)
        for e in re.findall(r'(\d+)(?:-(\d+))?', m.group(4)):
            a = int(e[0]); b = int(e[1] or a)
            for l in range(a, b + 1): cited[base][l].add(mod)
REASON = json.load(open('/verif/tools/not_modelled.json'))
out = []
for f in sorted(glob.glob('/repo/**/*.py', recursive=True)):
    rel = f[6:]
    if '/tests/' in rel or 'setup' in rel: continue
    src = open(f).read(); lines = src.split('\n'); tree = ast.parse(src)
    base = os.path.basename(f)
    rows = []
    def code_lines(nodes, inner=False):
        res = set()
        for st in nodes:
            res.update(range(st.lineno, st.end_lineno + 1))
        return {l for l in res if lines[l-1].strip() and not lines[l-1].strip().startswith('#')}
    def visit(node, prefix):
        for ch in ast.iter_child_nodes(node):
            if isinstance(ch, ast.ClassDef): visit(ch, prefix + ch.name + '.')
            elif isinstance(ch, ast.FunctionDef):
                body = ch.body
                if isinstance(body[0], ast.Expr) and isinstance(getattr(body[0], 'value', None), ast.Constant): body = body[1:]
                rows.append((prefix + ch.name, ch.lineno, code_lines(body)))
    visit(tree, '')
    main = [n for n in tree.body if isinstance(n, ast.If) and 'name' in ast.dump(n.test) and '__main__' in ast.dump(n.test)]
    if main: rows.append(('main program', main[0].lineno, code_lines(main[0].body)))
    if not rows: continue
    out.append(f'* `{rel}`')
    groups = collections.OrderedDict()
    for name, line, code in rows:
        mods = collections.Counter(m for l in code for m in cited[base][l])
        miss = [l for l in code if not cited[base][l]]
        key = f'{rel}:{name}'
        if not code: continue
        if len(miss) == len(code):
            tag = 'not modelled: ' + REASON.get(key, '?')
            if key not in REASON: print('no reason', key, file=sys.stderr)
        else:
            tag = '`' + '`, `'.join(sorted(mods)) + '`'
            if len(miss) > 3:
                tag += f' (in part: {REASON.get(key, "?")})'
                if key not in REASON: print('no reason (part)', key, sorted(miss), file=sys.stderr)
        groups.setdefault(tag, []).append(name)
    for tag, names in groups.items():
        out.append(f'  * {", ".join("`" + n + "`" if n != "main program" else n for n in names)}: {tag}')
table = '\n'.join(out)
m = json.load(open('/verif/MANIFEST.json'))
names = sorted({t for c in m['claims'] for t in c['theorems']})
open('/tmp/Ax.lean', 'w').write('import Verif\n' + ''.join(f'#print axioms {n}\n' for n in names))
r = subprocess.run(['lake', 'env', 'lean', '/tmp/Ax.lean'], cwd='/verif/lean', capture_output=True, text=True).stdout
r = re.sub(r'\n\s+', ' ', r)
ax = {}
for mm in re.finditer(r"'([^']+'?)' (does not depend on any axioms|depends on axioms: \[([^\]]*)\])", r):
    ax[mm.group(1)] = tuple(sorted(x.strip() for x in (mm.group(3) or '').split(',') if x.strip()))
assert len(ax) == len(names), (len(ax), len(names))
by = collections.defaultdict(list)
for n, a in ax.items(): by[a].append(n)
std = ('Classical.choice', 'Quot.sound', 'propext')
assert all(set(a) <= set(std) for a in by), by.keys()
axl = [f'All {len(names)} theorems of MANIFEST.json depend on `propext`, `Classical.choice` and `Quot.sound`, except:', '']
for a in sorted(by, key=len):
    if a == std: continue
    axl.append('* ' + ('no axiom' if not a else 'only ' + ', '.join(f'`{x}`' for x in a)) + ': ' + ', '.join(f'`{n.replace("Verif.Props.", "")}`' for n in sorted(by[a])) + '.')
docs = {}
for fn in sorted(glob.glob('/verif/lean/Verif/Props/*.lean')):
    for mm in re.finditer(r'/--((?:(?!-/).)*)-/\s*theorem (C\d+\S*_violated\S*)', open(fn).read(), re.S):
        docs[mm.group(2)] = ' '.join(mm.group(1).split())
bad = [f'* `{n}`: {re.sub(r"^C[0-9]+[,:]? ", "", docs[n])}' for n in sorted(docs)]
p = '/verif/DESIGN.md'
s = open(p).read()
for mark, txt in [('functions', table), ('axioms', '\n'.join(axl)), ('refuted', '\n'.join(bad))]:
    b, e = f'<!-- {mark} -->', f'<!-- end {mark} -->'
    i, j = s.index(b) + len(b), s.index(e)
    s = s[:i] + '\n' + txt + '\n' + s[j:]
open(p, 'w').write(s)
