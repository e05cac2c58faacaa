"""Write the status table and the list of disagreements at the end of DESIGN.md."""
import json
import os

root = os.path.dirname(os.path.dirname(os.path.abspath(__file__)))
props = {}
for line in open(os.path.join(root, "properties.jsonl")):
    d = json.loads(line)
    props[d["id"]] = d
claims = {c["property"]: c for c in json.load(open(os.path.join(root, "MANIFEST.json")))["claims"]}
path = os.path.join(root, "DESIGN.md")
text = open(path).read()
mark = "<!-- generated from here on by tools/mkstatus.py -->"
text = text.split(mark)[0].rstrip("\n") + "\n\n" + mark + "\n\n"
order = sorted(props, key=lambda i: int(i[1:]))
text += "## Disagreements\n\nThe code does not do what these properties say, or not always.\n\n"
for i in order:
    c = claims.get(i)
    if c and c["status"] == "partial":
        text += f"* **{i}** {props[i]['title']}. {c['note']}\n"
text += "\n## Status\n\n| property | title | status | theorems |\n|---|---|---|---|\n"
for i in order:
    c = claims.get(i)
    if c:
        ths = ", ".join(t.replace("Gama.", "") for t in c["theorems"])
        text += f"| {i} | {props[i]['title']} | {c['status']} | {ths} |\n"
    else:
        text += f"| {i} | {props[i]['title']} | open | |\n"
open(path, "w").write(text)
