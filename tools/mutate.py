#!/usr/bin/env python3
"""Mutation tests of the theorems. Usage: mutate.py mutants.json [--log] [--all]

A mutant is {"file": "Model/Graph.lean", "def": "Graph.add", "edit": "what the bug is", "old": "...", "new": "...", "breaks": ["C01", ...]}.
The edit is applied to a scratch copy; the edited module and the modules that import it are elaborated again (declarations whose proof fails become
sorry). The property theorems whose proofs use a declaration that failed are reported. A mutant is killed when each of its claims has a theorem
among them; elaboration stops there, unless --all is given, so the list of failed theorems need not be complete. Only modules on which a theorem of a claim
depends are elaborated. "breaks": ["*"] stands for any claim (for mutants made by automut.py). Requires an up-to-date build in lean/.lake/build. With --log one line per mutant is appended to seeded/LOG.jsonl.
"""
import json, os, re, shutil, subprocess, sys
from concurrent.futures import ThreadPoolExecutor, wait, FIRST_COMPLETED
ROOT = os.path.dirname(os.path.dirname(os.path.abspath(__file__)))
MUT = os.environ.get("MUTDIR", "/tmp/mut")
JOBS = int(os.environ.get("MUTJOBS", "2"))
LEAN = os.path.join(MUT, "snap")  # snapshot of lean/ taken at the start, so that later changes do not disturb a run
ELAB = r"""import Lean
/-
Elaborates one module and writes its .olean even if there are errors (declarations that failed are then `sorry`). Prints the errors, the constants
of the module, and those that use `sorry`. Used by mutate.py; not part of the proofs.
-/
open Lean Elab

unsafe def main (args : List String) : IO Unit := do
  enableInitializersExecution
  let [file, modName, out] := args | throw (IO.userError "usage")
  initSearchPath (← findSysroot)
  let input ← IO.FS.readFile file
  let ctx := Parser.mkInputContext input file
  let (header, ps, msgs) ← Parser.parseHeader ctx
  let (env, msgs) ← processHeader header {} msgs ctx
  for m in msgs.toList do IO.println s!"0: {← m.data.toString}"
  let env := env.setMainModule modName.toName
  let s ← IO.processCommands ctx ps (Command.mkState env msgs {})
  for m in s.commandState.messages.toList do
    if m.severity == .error then
      IO.println s!"{m.pos.line}: {((← m.data.toString).splitOn "\n").head!}"
  let env := s.commandState.env
  for (c, ci) in env.constants.map₂.toList do
    if (ci.getUsedConstantsAsSet).contains ``sorryAx then IO.println s!"SORRY {c}" else IO.println s!"HAS {c}"
  writeModule env out
"""
DEPS = r"""import Verif
/- Prints the constants of Verif with their modules and the constants of Verif they use. -/
open Lean
#eval show CoreM Unit from do
  let env ← getEnv
  for (c, ci) in env.constants.map₁.toList do
    let some i := env.getModuleIdxFor? c | continue
    let m := env.header.moduleNames[i.toNat]!
    unless m.getRoot == `Verif do continue
    let mut us := #[]
    for u in ci.getUsedConstantsAsSet.toList do
      let some j := env.getModuleIdxFor? u | continue
      if (env.header.moduleNames[j.toNat]!).getRoot == `Verif then us := us.push u
    IO.println s!"CONST\t{m}\t{c}\t{ci matches .thmInfo _}\t{"\t".intercalate (us.toList.map toString)}"
"""

def modules():
    mods = {}
    for d, _, fs in os.walk(os.path.join(LEAN, "Verif")):
        for f in fs:
            if f.endswith(".lean"):
                p = os.path.join(d, f)
                name = os.path.relpath(p, LEAN)[:-5].replace("/", ".")
                mods[name] = (p, re.findall(r"^import (Verif\S*)", open(p).read(), re.M))
    return mods

def claim_of(c):
    m = re.match(r"(C\d+)_", c.split(".")[-1])
    return m.group(1) if m else None

class Base:
    """The constants, their modules and uses, and for each constant the property theorems that depend on it."""
    def __init__(self, out):
        self.module, self.uses, self.props, self.thms = {}, {}, set(), set()
        for l in out.split("\n"):
            if not l.startswith("CONST\t"): continue
            _, m, c, thm, *us = l.split("\t")
            self.module[c] = m; self.uses[c] = [u for u in us if u]
            if thm == "true": self.thms.add(c)
            if thm == "true" and claim_of(c) and "._" not in c: self.props.add(c)
        self.closure = {}
        sys.setrecursionlimit(100000)
        self.users = {}
        for c, us in self.uses.items():
            for u in us: self.users.setdefault(u, []).append(c)
    def affected(self, c):
        if c not in self.closure:
            seen, todo = set(), [c]
            while todo:
                x = todo.pop()
                if x in seen: continue
                seen.add(x); todo += self.users.get(x, [])
            self.closure[c] = seen & self.props
        return self.closure[c]
    def needed_modules(self, claims):
        seen, todo = set(), [p for p in self.props if claim_of(p) in claims]
        while todo:
            x = todo.pop()
            if x in seen: continue
            seen.add(x); todo += self.uses.get(x, [])
        return {self.module[x] for x in seen if x in self.module}

def run(mutant, mods, base, env, full):
    target = "Verif." + mutant["file"][:-5].replace("/", ".")
    lib = os.path.join(MUT, "lib")
    shutil.rmtree(lib, ignore_errors=True)
    shutil.copytree(os.path.join(LEAN, ".lake/build/lib/lean"), lib)
    src = open(mods[target][0]).read()
    if src.count(mutant["old"]) != mutant.get("count", 1):
        return {"error": f"old text occurs {src.count(mutant['old'])} times"}
    dirty = {target}
    while True:
        more = {m for m in mods if m not in dirty and any(i in dirty for i in mods[m][1])}
        if not more: break
        dirty |= more
    if not full and "*" not in mutant["breaks"]:
        need = base.needed_modules(set(mutant["breaks"])) | {target}
        while True:  # and what these import, among the modules to be elaborated again
            more = {i for m in need if m in dirty for i in mods[m][1] if i in dirty and i not in need}
            if not more: break
            need |= more
        dirty &= need
    failed_decls, failed = [], set()
    def elab(m):
        s = open(mods[m][0]).read()
        if m == target: s = re.sub(r"^#guard .*\n((?!#guard|end ).+\n)*", "", s.replace(mutant["old"], mutant["new"]), flags=re.M)
        tmp = os.path.join(MUT, m + ".src.lean")
        open(tmp, "w").write(s)
        out = os.path.join(lib, m.replace(".", "/") + ".olean")
        return subprocess.run(["lean", "--run", os.path.join(MUT, "Elab.lean"), tmp, m, out], env=env, capture_output=True, text=True, timeout=1500)
    done, running, ok = set(), {}, True
    with ThreadPoolExecutor(JOBS) as ex:
        while True:
            hit = {claim_of(p) for p in failed}
            stop = not full and all(c in hit or c == "*" and hit for c in mutant["breaks"])
            if not stop:
                for m in sorted(dirty):
                    if m not in done and m not in running.values() and all(i not in dirty or i in done for i in mods[m][1]):
                        if len(running) < JOBS: running[ex.submit(elab, m)] = m
            if not running: break
            ready, _ = wait(running, return_when=FIRST_COMPLETED)
            for fu in ready:
                m = running.pop(fu)
                try: r = fu.result()
                except subprocess.TimeoutExpired: return {"error": f"timeout in {m}"}
                if r.returncode != 0:
                    if stop: done.add(m); continue
                    return {"error": m + ": " + (r.stderr + r.stdout)[-400:]}
                done.add(m)
                has = set(re.findall(r"^HAS (\S+)", r.stdout, re.M))
                bad = {c for c, mm in base.module.items() if mm == m and c not in has and "._" not in c and "match_" not in c and ".eq_" not in c and "proof_" not in c and ".congr" not in c and ".inject" not in c}
                if m == target:
                    if re.search(r"^\d+: ", r.stdout, re.M) and any(c not in base.thms for c in bad):
                        return {"error": "mutated module does not elaborate: " + r.stdout[:300]}
                    bad &= base.thms
                for c in re.findall(r"^SORRY (\S+)", r.stdout, re.M):
                    while c not in base.module and "." in c: c = c.rsplit(".", 1)[0]
                    bad.add(c)
                for c in bad:
                    if base.affected(c):
                        failed |= base.affected(c)
                        if not claim_of(c): failed_decls.append(c.replace("Verif.", "", 1))
    return {"failed_decls": failed_decls, "failed_props": sorted({p.split(".")[-1] for p in failed})}

def main():
    muts = json.load(open(sys.argv[1]))
    assert all(isinstance(m["breaks"], list) for m in muts), "breaks must be a list of claims"
    log, full = "--log" in sys.argv, "--all" in sys.argv
    os.makedirs(MUT, exist_ok=True)
    open(os.path.join(MUT, "Elab.lean"), "w").write(ELAB)
    open(os.path.join(MUT, "Deps.lean"), "w").write(DEPS)
    shutil.rmtree(LEAN, ignore_errors=True)
    src = os.path.join(ROOT, "lean")
    shutil.copytree(os.path.join(src, "Verif"), os.path.join(LEAN, "Verif"))
    shutil.copy(os.path.join(src, "Verif.lean"), LEAN)
    shutil.copytree(os.path.join(src, ".lake/build/lib/lean"), os.path.join(LEAN, ".lake/build/lib/lean"))
    path = subprocess.run(["lake", "env", "printenv", "LEAN_PATH"], cwd=src, capture_output=True, text=True).stdout.strip().split(":")
    env = dict(os.environ, LEAN_PATH=":".join([os.path.join(MUT, "lib")] + path[1:]))
    mods = modules()
    r = subprocess.run(["lean", os.path.join(MUT, "Deps.lean")], env=dict(env, LEAN_PATH=":".join([os.path.join(LEAN, ".lake/build/lib/lean")] + path[1:])), capture_output=True, text=True)
    base = Base(r.stdout)
    assert len(base.props) > 100, r.stdout[-500:] + r.stderr
    for mu in muts:
        r = run(mu, mods, base, env, full)
        missed = [c for c in mu["breaks"] if not any(c == "*" or t.startswith(c + "_") for t in r.get("failed_props", []))]
        verdict = "ERROR " + r["error"] if "error" in r else ("SURVIVED " + ",".join(missed) if missed else "killed")
        print(f"{mu['file']} {mu['def']}: {mu['edit']} -> {verdict}; failed: {', '.join(r.get('failed_props', []))}", flush=True)
        if log and "error" not in r:
            with open(os.path.join(ROOT, "seeded/LOG.jsonl"), "a") as f:
                f.write(json.dumps({"definition": f"lean/Verif/{mu['file']}: {mu['def']}", "edit": mu["edit"], "claim": mu["breaks"] if mu["breaks"] != ["*"] else sorted({t.split("_")[0] for t in r["failed_props"]}),
                  "failed": r["failed_props"], "failed_lemmas": r["failed_decls"][:6], "survived_claims": missed, "tightened": mu.get("tightened", [])}) + "\n")
main()
