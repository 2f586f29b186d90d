"""Checks the citations of the model: that the lines exist and that a function named right after them is defined there."""
import ast
import os
import re

ROOT = os.path.dirname(os.path.dirname(os.path.abspath(__file__)))
REPO = os.environ.get("REPO", "/repo")
bad = n = 0


def defs(src):
    out = {}
    for x in ast.walk(ast.parse(src)):
        if isinstance(x, (ast.FunctionDef, ast.ClassDef)):
            first = min([x.lineno] + [d.lineno for d in x.decorator_list])
            out.setdefault(x.name, []).append((first, x.end_lineno))
    return out


for d, _, fs in os.walk(f"{ROOT}/lean/Verif"):
    for f in sorted(fs):
        if not f.endswith(".lean"):
            continue
        text = open(os.path.join(d, f)).read()
        for m in re.finditer(r"(elsie/[\w/]+\.py)((?::\d+(?:-\d+)?)(?:(?:, | and )\d+(?:-\d+)?)*)?(?:\s+`(?:\w+\.)?(\w+)`)?", text):
            path, lines, name = m.groups()
            n += 1
            where = f"{f}:{text.count(chr(10), 0, m.start()) + 1}"
            if not os.path.exists(f"{REPO}/{path}"):
                bad += 1
                print(where, "no such file", path)
                continue
            src = open(f"{REPO}/{path}").read().split("\n")
            if src[-1] == "":
                src.pop()
            if not lines:
                continue
            ranges = [tuple(map(int, (r + "-" + r).split("-")[:2])) for r in re.findall(r"\d+(?:-\d+)?", lines)]
            if any(a > b or b > len(src) for a, b in ranges):
                bad += 1
                print(where, "no such lines", m.group(0).replace("\n", " "), f"({len(src)} lines)")
            elif name and not any(re.search(r"\b" + name + r"\b", "\n".join(src[a - 1:b])) for a, b in ranges):
                bad += 1
                print(where, "not there:", m.group(0).replace("\n", " "), defs("\n".join(src)).get(name))
            elif name in defs("\n".join(src)) and not any(c <= a and b <= e + 1 for a, b in ranges for c, e in defs("\n".join(src))[name]):
                bad += 1
                print(where, "outside:", m.group(0).replace("\n", " "), defs("\n".join(src))[name])
print(n, "citations,", bad, "wrong")
