#!/usr/bin/env python3
"""Makes mutants of the definitions in lean/Verif/Model by textual operators. Usage: automut.py SEED COUNT > mutants.json

The operators: another number, = for ≠, < for ≤, ∧ for ∨, true for false, another exception, a negated condition, the branches of an `if` on one line exchanged,
the two sides of ++ exchanged, an element of a list dropped. Which claim a mutant breaks is not known, so "breaks" is ["*"].
"""
import json, os, random, re, sys
ROOT = os.path.dirname(os.path.dirname(os.path.abspath(__file__)))
MODEL = os.path.join(ROOT, "lean/Verif/Model")
def strip(src):
    """The text with comments and strings blanked out."""
    out, i, depth = [], 0, 0
    while i < len(src):
        two = src[i:i + 2]
        if depth == 0 and src[i] == '"':
            j = i + 1
            while src[j] != '"': j += 2 if src[j] == "\\" else 1
            out.append("".join("\n" if c == "\n" else "\x01" for c in src[i:j + 1])); i = j + 1; continue
        if two == "/-": depth += 1; out.append("\x00\x00"); i += 2; continue
        if two == "-/" and depth: depth -= 1; out.append("\x00\x00"); i += 2; continue
        if depth == 0 and two == "--":
            while i < len(src) and src[i] != "\n": out.append("\x00"); i += 1
            continue
        out.append(src[i] if depth == 0 or src[i] == "\n" else "\x00"); i += 1
    return "".join(out)
EXC = ["valueError", "typeError", "keyError", "attributeError"]
def edits(line):
    """(start, end, replacement) for a line of stripped text."""
    for m in re.finditer(r"(?<![\w.])\d+(?![\w.])", line): yield m.start(), m.end(), str(int(m.group()) + 1), "another number"
    for a, b, w in ((" = ", " ≠ ", "equality negated"), (" ≠ ", " = ", "inequality negated"), (" < ", " ≤ ", "< becomes ≤"), (" ≤ ", " < ", "≤ becomes <"),
                    (" ∧ ", " ∨ ", "and becomes or"), (" ∨ ", " ∧ ", "or becomes and"), (" && ", " || ", "and becomes or"), (" || ", " && ", "or becomes and"),
                    (" == ", " != ", "equality negated"), (" != ", " == ", "inequality negated")):
        for m in re.finditer(re.escape(a), line):
            if a == " = " and not re.search(r"\bif\b|decide|fun", line): continue
            yield m.start(), m.end(), b, w
    for m in re.finditer(r"(?<![\w.])(true|false)\b", line): yield m.start(), m.end(), "false" if m.group() == "true" else "true", "the other truth value"
    for m in re.finditer(r"\.error \.(\w+)", line):
        yield m.start(1), m.end(1), next(e for e in EXC if e != m.group(1)), "another exception"
    for m in re.finditer(r"\bif (?!let\b|h : )(.+?) then\b", line): yield m.start(1), m.end(1), "¬ (%s)" % m.group(1), "condition negated"
    for m in re.finditer(r"\bthen (.+?) else (?!if\b)(.+)$", line):
        yield m.start(1), m.end(2), m.group(2) + " else " + m.group(1), "branches exchanged"
    for m in re.finditer(r"([\w.\]]+) \+\+ ([\w.\[]+)", line): yield m.start(), m.end(), m.group(2) + " ++ " + m.group(1), "parts exchanged"
    for m in re.finditer(r"\b(some|none)\b(?= =>)", line): pass
def main():
    seed, count = int(sys.argv[1]), int(sys.argv[2])
    muts = []
    for f in sorted(os.listdir(MODEL)):
        src = open(os.path.join(MODEL, f)).read()
        st = strip(src)
        lines, orig = st.split("\n"), src.split("\n")
        cur = ""
        for n, (l, o) in enumerate(zip(lines, orig)):
            m = re.match(r"\s*(?:@\[.*?\] )?(?:private )?(def|inductive|structure|abbrev|instance|theorem|variable|example|#guard)\b ?(\S*)", l)
            if m: cur = m.group(2) if m.group(1) == "def" else ""
            if not cur or "termination_by" in l or "decreasing_by" in l: continue
            for a, b, r, w in edits(l):
                if ":=" not in l[:a] and re.match(r"\s*def\b", l) and "=>" not in l[:a]: continue
                if "\x01" in r:  # put the strings back
                    continue
                new = o[:a] + r + o[b:]
                k = n  # enough context to be unique
                lo = hi = n
                while src.count("\n".join(orig[lo:hi + 1])) != 1:
                    if lo > 0: lo -= 1
                    if src.count("\n".join(orig[lo:hi + 1])) != 1: hi += 1
                muts.append({"file": "Model/" + f, "def": cur, "edit": f"{w}: {o.strip()} becomes {new.strip()}", "old": "\n".join(orig[lo:hi + 1]),
                             "new": "\n".join(orig[lo:n] + [new] + orig[n + 1:hi + 1]), "breaks": ["*"]})
    random.Random(seed).shuffle(muts)
    sys.stderr.write(f"{len(muts)} mutants\n")
    json.dump(muts[:count], sys.stdout, indent=1, ensure_ascii=False)
main()
