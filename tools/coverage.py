"""Which functions of /repo are cited by the model (file:line ranges in the comments of lean/Verif/Model)?"""
import ast, re, glob, os
cites = {}
for f in glob.glob('/verif/lean/Verif/Model/*.lean'):
    t = open(f).read()
    cur = None
    for m in re.finditer(r'([a-z_]+\.py)(?::(\d+(?:-\d+)?(?:, ?\d+(?:-\d+)?)*))?|(?<=[ (`,])(\d+-\d+)(?=[,;.) `:])', t):
        if m.group(1): cur = m.group(1); r = m.group(2)
        else: r = m.group(3)
        if not cur or not r: continue
        for x in re.split(r', ?', r):
            a, _, b = x.partition('-'); a = int(a); b = int(b or a)
            cites.setdefault(cur, set()).update(range(a, b + 1))
tot = cov = 0
for f in sorted(glob.glob('/repo/vistautils/**/*.py', recursive=True)):
    tree = ast.parse(open(f).read()); base = os.path.basename(f); c = cites.get(base, set())
    def walk(n, pre):
        global tot, cov
        for ch in ast.iter_child_nodes(n):
            if isinstance(ch, (ast.FunctionDef, ast.ClassDef)):
                name = pre + ch.name
                if isinstance(ch, ast.FunctionDef):
                    body = [s for s in ch.body if not (isinstance(s, ast.Expr) and isinstance(getattr(s, 'value', None), ast.Constant))]
                    if not body or all(isinstance(s, (ast.Raise, ast.Pass)) for s in body): continue
                    lines = set(range(body[0].lineno, ch.end_lineno + 1)); tot += len(lines); k = len(lines & c); cov += k
                    if k < 0.6 * len(lines): print(f"{os.path.relpath(f,'/repo/vistautils')}:{ch.lineno}-{ch.end_lineno} {name}  {k}/{len(lines)}")
                else: walk(ch, name + '.')
    walk(tree, '')
print(cov, '/', tot)
