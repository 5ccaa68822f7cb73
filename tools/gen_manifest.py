"""Write MANIFEST.json from the theorem names in lean/Verif/Props and the notes below.

A property is "proved" if its full statement is a theorem; "partial" if the code violates it (then a theorem proves the
negation, or the exact behaviour) or if only a restricted form is proved.
"""
import json, re, glob, os
here = os.path.dirname(os.path.abspath(__file__))
root = os.path.dirname(here)
notes = json.load(open(os.path.join(here, "manifest_notes.json")))
names = {}
for f in sorted(glob.glob(os.path.join(root, "lean/Verif/Props/*.lean"))):
    ns = []
    for m in re.finditer(r"^(?:namespace (\S+)|end (\S+)|theorem (C\d{2,3})_([A-Za-z0-9_']+))", open(f).read(), re.M):
        if m.group(1):
            ns.append(m.group(1))
        elif m.group(2):
            if ns and ns[-1] == m.group(2):
                ns.pop()
        else:
            names.setdefault(m.group(3), []).append(".".join(ns + [m.group(3) + "_" + m.group(4)]))
claims = []
for pid in sorted(names):
    status, note = notes[pid]
    claims.append({"property": pid, "status": status, "theorems": names[pid], "note": note})
json.dump({"claims": claims}, open(os.path.join(root, "MANIFEST.json"), "w"), indent=1)
missing = set(notes) - set(names)
assert not missing, ("properties without theorem", missing)
print(len(claims), "claims")
