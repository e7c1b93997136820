#!/usr/bin/env python3
# Generates /verif/MANIFEST.json from the theorems named Cnn_... in lean/Verif/**/Props*.lean
# and the notes below.  A property is "partial" when one of its theorems ends in _partial.
import re, os, json, glob
ROOT = os.path.join(os.path.dirname(os.path.abspath(__file__)), "..")
exec(open(os.path.join(ROOT, "tools", "notes.py")).read())   # NOTES, FORCE
thms = {}
for f in sorted(glob.glob(os.path.join(ROOT, "lean/Verif/**/Props*.lean"), recursive=True)):
    ns = []
    for line in open(f):
        m = re.match(r"namespace (\S+)", line)
        if m: ns.append(m.group(1)); continue
        m = re.match(r"end (\S+)", line)
        if m and ns and ns[-1] == m.group(1): ns.pop(); continue
        m = re.match(r"theorem ((C\d\d+)_\S+)", line)
        if m: thms.setdefault(m.group(2), []).append(".".join(ns + [m.group(1)]))
claims = []
for pid in sorted(thms, key=lambda c: int(c[1:])):
    st = "partial" if any(t.endswith("_partial") for t in thms[pid]) else "proved"
    st = FORCE.get(pid, st)
    claims.append(dict(property=pid, status=st, theorems=thms[pid], note=NOTES.get(pid, "")))
json.dump({"claims": claims}, open(os.path.join(ROOT, "MANIFEST.json"), "w"), indent=1)
print(len(claims), "claims;", sum(c["status"] == "proved" for c in claims), "proved;",
      [c["property"] for c in claims if not c["note"]], "without note")
