"""Fill in the empty "tightened" fields of seeded/LOG.jsonl for attempts whose labelled claim did not fail: a later entry
repeats the attempt after tightening, or only theorems of other claims failed. The latter is recorded as not reviewed; whether the labelled claim
really is unaffected is decided by hand, entry by entry."""
import json
import os

path = os.path.join(os.path.dirname(__file__), "..", "seeded", "LOG.jsonl")
log = [json.loads(line) for line in open(path)]
for i, x in enumerate(log):
    if not x.get("survived_claims") or x.get("tightened"):
        continue
    later = [y for y in log[i + 1:] if y["definition"] == x["definition"] and y["edit"] == x["edit"]]
    text = None
    if later and not later[-1].get("survived_claims"):
        text = "tightened afterwards; a later entry repeats this edit, and it fails"
    elif x["failed"]:
        text = "none; only theorems of other claims failed, and whether the labelled claim is affected has not been reviewed"
    if text:
        x["tightened"] = [text] if isinstance(x["tightened"], list) else text
open(path, "w").write("".join(json.dumps(x, ensure_ascii=False) + "\n" for x in log))
