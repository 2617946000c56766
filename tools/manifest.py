"""Rebuild MANIFEST.json and lean/Verif.lean from the theorem names in lean/Verif/Props and the notes in tools/notes.json."""
import json, re, glob, os
root = os.path.dirname(os.path.dirname(os.path.abspath(__file__)))
notes = json.load(open(root + "/tools/notes.json"))
names = {}
for f in sorted(glob.glob(root + "/lean/Verif/Props/**/*.lean", recursive=True)):
    stack = []
    for line in open(f):
        m = re.match(r"(namespace|section|end|theorem|noncomputable section)\b ?(\S*)", line)
        if not m:
            continue
        if m.group(1) == "namespace":
            stack.append(m.group(2))
        elif m.group(1) in ("section", "noncomputable section"):
            stack.append(None)
        elif m.group(1) == "end":
            stack.pop()
        else:
            c = re.match(r"C\d+(?=_)", m.group(2))
            if c:
                names.setdefault(c.group(0), []).append(".".join([s for s in stack if s] + [m.group(2)]))
claims = []
for line in open(root + "/properties.jsonl"):
    p = json.loads(line)
    i = p["id"]
    n = notes.get(i, {})
    ths = names.get(i, [])
    if not ths and not n:
        continue
    status = n.get("status", "proved")
    claims.append({"property": i, "status": status, "theorems": ths, "note": n.get("note", p["title"])})
json.dump({"claims": claims}, open(root + "/MANIFEST.json", "w"), indent=1, ensure_ascii=False)
mods = sorted(f[len(root + "/lean/"):-5].replace("/", ".") for f in glob.glob(root + "/lean/Verif/**/*.lean", recursive=True))
open(root + "/lean/Verif.lean", "w").write("".join("import %s\n" % m for m in mods))
print(len(claims), "claims,", sum(len(c["theorems"]) for c in claims), "theorems,", len(mods), "modules")
