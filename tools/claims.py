"""Writes properties.jsonl from claims_data.py and MANIFEST.json from status_data.py."""
import json, os
HERE = os.path.dirname(os.path.abspath(__file__))
ROOT = os.path.dirname(HERE)
P = []

def p(id, title, statement, quantifier, why, anchors):
    assert all(x["id"] != id for x in P), id
    P.append({"id": id, "title": title, "statement": statement, "quantifier": quantifier,
              "why_tests_cant": why, "anchors": anchors})

exec(open(os.path.join(HERE, "claims_data.py")).read())
exec(open(os.path.join(HERE, "status_data.py")).read())
with open(os.path.join(ROOT, "properties.jsonl"), "w") as f:
    for x in P:
        f.write(json.dumps(x) + "\n")
ids = {x["id"] for x in P}
assert set(S) <= ids, set(S) - ids
with open(os.path.join(ROOT, "MANIFEST.json"), "w") as f:
    json.dump({"claims": [{"property": x["id"], "status": S[x["id"]][0], "theorems": S[x["id"]][1],
                           "note": S[x["id"]][2]} for x in P if x["id"] in S]}, f, indent=1)
    f.write("\n")
design = os.path.join(ROOT, "DESIGN.md")
text = open(design).read()
a, b = "<!-- disagreements -->\n", "<!-- end -->"
i, j = text.index(a) + len(a), text.index(b)
title = {x["id"]: x["title"] for x in P}
rows = [f"* **{c}** ({title[c]}) {S[c][2]}\n" for c in sorted(S) if S[c][0] == "partial"]
with open(design, "w") as f:
    f.write(text[:i] + "".join(rows) + text[j:])
print(len(P), "properties,", len(S), "claims; missing:", [x["id"] for x in P if x["id"] not in S])
