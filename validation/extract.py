"""Reads the literal test data of /repo/tests*/test_*.py with `ast` (nothing of the repository is
executed) and prints it in a flat numeric format for Run.lean.txt (copy it to Run.lean first): doubles as 64-bit patterns."""
import ast, glob, struct, sys
def bits(x): return struct.unpack('<Q', struct.pack('<d', float(x)))[0]
def num(n):
    if isinstance(n, ast.UnaryOp): return -num(n.operand)
    return n.value
def vec(n): return [num(e) for e in n.args[0].elts]
files = sorted(f for d in sys.argv[1:] for f in glob.glob(d + '/test_*.py'))
for f in files:
    t = ast.parse(open(f).read())
    env = {}
    for st in t.body:
        if isinstance(st, ast.Assign) and isinstance(st.targets[0], ast.Name):
            env[st.targets[0].id] = st.value
    verts = [vec(c) for c in env['verts'].elts]
    u = env['unitVectors']
    units = [vec(c) for c in u.elts] if isinstance(u, ast.List) else []
    h = env['holesInfo']
    holes = [[num(e) for e in c.elts] for c in h.elts] if isinstance(h, ast.List) else []
    first = num(env['firstVertIndex'])
    n = env['numPolygonVerts']
    n = len(verts) if isinstance(n, ast.Call) else num(n)
    out = [f.split('/')[-1], str(first), str(n), str(len(holes))]
    for a, b in holes: out += [str(a), str(b)]
    for l in (verts, units):
        out.append(str(len(l)))
        for v in l: out += [str(bits(c)) for c in v]
    print(' '.join(out))
