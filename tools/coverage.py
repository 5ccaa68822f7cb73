"""List the functions of /repo/src/pymantic that no definition under lean/Verif/Model (or Py) cites: a citation is `file.py:a-b` or a list of line ranges after it."""
import ast, glob, os, re
root = "/repo/src/pymantic/"
cites = {}
for f in glob.glob(os.path.join(os.path.dirname(__file__), "../lean/Verif/Model/*.lean")) + glob.glob(os.path.join(os.path.dirname(__file__), "../lean/Verif/Py/*.lean")):
    text = open(f).read()
    for m in re.finditer(r"([\w/]+\.py):((?:\s*\d+(?:-\d+)?,?(?: and)?)+)", text):
        for r in re.findall(r"(\d+)(?:-(\d+))?", m.group(2)):
            a = int(r[0]); b = int(r[1] or r[0])
            cites.setdefault(m.group(1).split("pymantic/")[-1], set()).update(range(a, b + 1))
for path in sorted(glob.glob(root + "**/*.py", recursive=True)):
    rel = path[len(root):]
    lines = set()
    for k, v in cites.items():
        if rel == k or rel.endswith("/" + k): lines |= v
    def walk(node, pre):
        for c in ast.iter_child_nodes(node):
            if isinstance(c, (ast.FunctionDef, ast.ClassDef)):
                if isinstance(c, ast.FunctionDef):
                    body = set(range(c.lineno, c.end_lineno + 1))
                    if not body & lines: print(rel, c.lineno, pre + c.name)
                walk(c, pre + c.name + ".")
    walk(ast.parse(open(path).read()), "")
