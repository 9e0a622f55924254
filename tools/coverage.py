"""List, for every function of /repo/obp, whether a definition of the model cites lines inside it."""
import ast, glob, re, os
cites = {}
for p in glob.glob('/verif/lean/Verif/Model/*.lean'):
    s = open(p).read()
    for c in re.findall(r'/--.*?-/|/-!.*?-/', s, re.S):
        cur = None
        for tok in re.finditer(r'(obp/[\w/]+\.py)|(?<![\w.])(\d+)(?:-(\d+))?(?![\w.])', c):
            if tok.group(1):
                cur = tok.group(1)
            elif cur and int(tok.group(2)) > 3:
                a = int(tok.group(2)); b = int(tok.group(3) or a)
                if b >= a: cites.setdefault(cur, []).append((a, b))
out = {}
for p in sorted(glob.glob('/repo/obp/**/*.py', recursive=True)):
    rel = os.path.relpath(p, '/repo')
    t = ast.parse(open(p).read())
    fs = []
    def walk(n, pre):
        for x in n.body:
            if isinstance(x, ast.ClassDef): walk(x, pre + x.name + '.')
            elif isinstance(x, ast.FunctionDef): fs.append((pre + x.name, x.lineno, x.end_lineno))
    walk(t, '')
    yes = [f for f, a, b in fs if any(c[0] <= b and a <= c[1] for c in cites.get(rel, []))]
    no = [f for f, a, b in fs if f not in yes]
    out[rel] = (len(yes), no)
for r, (k, no) in out.items():
    if k or no: print(f'{r}: {k} cited; not cited: {", ".join(no) or "none"}')
