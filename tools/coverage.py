"""Lists the lines of /repo python functions not cited by a comment of the model."""
import re, ast, glob, os, collections
cited = collections.defaultdict(set)
for f in glob.glob('/verif/lean/Verif/Model/*.lean'):
    s = open(f).read()
    last = None
    for m in re.finditer(r'([\w/]+\.py)?:(\d+)(?:-(\d+))?((?:, ?\d+(?:-\d+)?)*)', s):
        name = m.group(1) or last
        if name is None: continue
        last = name
        base = os.path.basename(name)
        a = int(m.group(2)); b = int(m.group(3) or a)
        cited[base].update(range(a, b + 1))
        for e in re.findall(r'(\d+)(?:-(\d+))?', m.group(4)):
            a = int(e[0]); b = int(e[1] or a)
            cited[base].update(range(a, b + 1))
for f in sorted(glob.glob('/repo/**/*.py', recursive=True)):
    if 'test' in f or 'setup' in f: continue
    src = open(f).read(); tree = ast.parse(src)
    base = os.path.basename(f)
    for node in ast.walk(tree):
        if isinstance(node, ast.FunctionDef):
            body = node.body
            if isinstance(body[0], ast.Expr) and isinstance(getattr(body[0], 'value', None), ast.Constant): body = body[1:]
            lines = set()
            for st in body: lines.update(range(st.lineno, st.end_lineno + 1))
            code = {l for l in lines if src.split('\n')[l-1].strip() and not src.split('\n')[l-1].strip().startswith('#')}
            miss = code - cited[base]
            if code and len(miss) > 0.0 * len(code):
                print(f[6:], node.name, node.lineno, f'{len(miss)}/{len(code)}')
