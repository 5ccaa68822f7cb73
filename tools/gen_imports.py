"""Write lean/Verif.lean: one import per module under lean/Verif."""
import glob, os
root = os.path.join(os.path.dirname(os.path.abspath(__file__)), "..", "lean")
order = ["Py", "Spec", "Model", "Lemmas", "Props"]
mods = []
for f in glob.glob(os.path.join(root, "Verif", "**", "*.lean"), recursive=True):
    m = os.path.relpath(f, root)[:-5].replace(os.sep, ".")
    mods.append(m)
mods.sort(key=lambda m: (order.index(m.split(".")[1]), m))
with open(os.path.join(root, "Verif.lean"), "w") as g:
    for m in mods:
        g.write(f"import {m}\n")
print(len(mods), "modules")
