#!/usr/bin/env python3
"""Regenerates the generated parts of DESIGN.md: tools/design_head.md, then the coverage of the source by the model
(from the citations in lean/Verif/Model), then one entry per property (from properties.jsonl, tools/notes.json and the
theorem names), then tools/design_tail.md.  The coverage table needs the source in /repo; without it the table kept in
tools/coverage.md is used."""
import ast, glob, json, os, re
root = os.path.dirname(os.path.dirname(os.path.abspath(__file__)))
T = lambda n: os.path.join(root, "tools", n)


def citations():
    """file -> list of (first, last, lean file)"""
    res = {}
    for f in sorted(glob.glob(os.path.join(root, "lean/Verif/Model/*.lean"))):
        for c in re.findall(r"/-[-!](.*?)-/", open(f).read(), re.S):
            cur = None
            for m in re.finditer(r"((?:geometry|SR_Vessel)/\w+\.py)|(?<![\w.])(\d+)(?:\s*-\s*(\d+))?(?!\w|\.\d)", c):
                if m.group(1):
                    cur = m.group(1)
                elif cur:
                    a = int(m.group(2)); b = int(m.group(3) or a)
                    if b >= a:
                        res.setdefault(cur, []).append((a, b, os.path.basename(f)))
    return res


def functions(path):
    """(name, lines of code in the body)"""
    src = open(path).read()
    text = src.split("\n")
    out = []
    def walk(node, pre):
        for n in node.body:
            if isinstance(n, ast.ClassDef):
                walk(n, n.name + ".")
            elif isinstance(n, ast.FunctionDef):
                body = n.body
                if len(body) > 1 and isinstance(body[0], ast.Expr) and isinstance(body[0].value, ast.Constant):
                    body = body[1:]
                code = [i for i in range(body[0].lineno, n.end_lineno + 1)
                        if text[i - 1].strip() and not text[i - 1].strip().startswith("#")]
                out.append((pre + n.name, code))
    walk(ast.parse(src), "")
    return out


# cited only as an instance of a common form, without a definition of its own
PARTLY = {"KegelKrempe.from_dict"}


def coverage():
    if not os.path.isdir("/repo/geometry"):
        return open(T("coverage.md")).read()
    cites = citations()
    lines = []
    for f in ["geometry/SR_point.py", "geometry/SR_line.py", "geometry/SR_polygon.py", "geometry/SR_polygon_group.py",
              "geometry/additional_stuff.py", "SR_Vessel/SR_hauptteile.py"]:
        if not os.path.exists("/repo/" + f):
            continue
        yes, part, no = [], [], []
        for name, code in functions("/repo/" + f):
            near = [(x, y, l) for (x, y, l) in cites.get(f, []) if y - x < 130]
            cov = [i for i in code if any(x <= i <= y for x, y, _ in near)]
            hit = sorted({l for (x, y, l) in near if any(x <= i <= y for i in code)})
            if not cov:
                no.append("`%s`" % name)
                continue
            item = "`%s` (%s)" % (name, ", ".join(h[:-5] for h in hit))
            (yes if 2 * len(cov) >= len(code) and name not in PARTLY else part).append(item)
        lines.append("* **%s**\n  * modelled: %s\n  * a part cited: %s\n  * not modelled: %s\n" % (
            f, ", ".join(yes) or "-", ", ".join(part) or "-", ", ".join(no) or "-"))
    s = "\n".join(lines)
    open(T("coverage.md"), "w").write(s)
    return s


def entries():
    props = [json.loads(l) for l in open(os.path.join(root, "properties.jsonl")) if l.strip()]
    man = {c["property"]: c for c in json.load(open(os.path.join(root, "MANIFEST.json")))["claims"]}
    where = {}
    for f in sorted(glob.glob(os.path.join(root, "lean/Verif/Props/*.lean"))):
        for m in re.finditer(r"^theorem (C\d+_\w+)", open(f).read(), re.M):
            where["Srep." + m.group(1)] = os.path.basename(f)
    out = []
    for p in props:
        c = man.get(p["id"])
        if not c:
            continue
        files = sorted({where[t] for t in c["theorems"]})
        out.append("### %s %s (%s)\n\n%s\n\n* code: %s\n* how: %s\n* theorems (%s): %s\n" % (
            p["id"], p["title"], c["status"], p["statement"], ", ".join("`%s`" % a for a in p["anchors"]), c["note"],
            ", ".join("Props/" + f for f in files), ", ".join("`%s`" % t[5:] for t in c["theorems"])))
    return "\n".join(out)


open(os.path.join(root, "DESIGN.md"), "w").write(
    open(T("design_head.md")).read() + "\n## Coverage of the source\n\n" + open(T("design_cov.md")).read() + "\n" +
    coverage() + "\n" + open(T("design_tail.md")).read() + "\n## Properties\n\n" + entries())
