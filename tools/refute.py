#!/usr/bin/env python3
"""Refute the statements of property theorems for seeded wrong programs.

usage: refute.py SEEDS.json SCRATCH LOG

A proof that fails for an edited model shows only that the proof noticed the edit.
Here the statement itself is refuted: SEEDS is a list of {definition, file, old,
new, nth, edit, claim, props, theorem, proof}.  The edit is made in SCRATCH, a copy
of /verif/lean with its build output; the statement of `theorem` is copied out of
Verif/Props/`props` into a file that imports the model and the specifications only,
as a proposition `Claim`; and `proof` has to prove `¬ Claim` there.
"""
import json, os, re, subprocess, sys

seeds, scratch, log = sys.argv[1:4]
only = set(sys.argv[4:])

def statement(text, name):
    i = re.search(r"^theorem " + re.escape(name) + r"(?=[\s:({\[])", text, re.M).end()
    depth, colon, j = 0, None, i
    while True:
        c = text[j]
        if c in "([{⟨":
            depth += 1
        elif c in ")]}⟩":
            depth -= 1
        elif depth == 0 and text.startswith(":=", j):
            return text[i:colon].strip(), text[colon + 1:j].strip()
        elif depth == 0 and c == ":" and colon is None:
            colon = j
        j += 1

def imports(module, seen):
    """The model and specification modules that a module depends on."""
    if module in seen:
        return
    seen.add(module)
    path = os.path.join(scratch, module.replace(".", "/") + ".lean")
    for m in re.findall(r"^import (Verif\.\S+)", open(path).read(), re.M):
        imports(m, seen)

for seed in json.load(open(seeds)):
    if only and seed["theorem"] not in only and seed["definition"] not in only:
        continue
    path = os.path.join(scratch, "Verif", "Model", seed["file"])
    text = open(path).read()
    parts = text.split(seed["old"])
    n = seed.get("nth", 0)
    if len(parts) < 2 + n or (len(parts) > 2 and "nth" not in seed):
        print("BAD SEED", seed["definition"], seed["old"], len(parts) - 1, flush=True)
        continue
    props = open(os.path.join(scratch, "Verif", "Props", seed["props"])).read()
    seen = set()
    imports("Verif.Props." + seed["props"][:-5], seen)
    modules = sorted(m for m in seen if m.startswith(("Verif.Model.", "Verif.Spec.")))
    binders, body = statement(props, seed["theorem"])
    claim = ("∀ " + binders + ",\n    " + body) if binders else body
    head = re.findall(r"^(?:namespace|open) .*(?<! in)$", props, re.M)
    refute = os.path.join(scratch, "Refute.lean")
    open(refute, "w").write(
        "".join("import %s\n" % m for m in modules) + "\n".join(head) + "\n" + seed.get("before", "") +
        "\ndef Claim : Prop :=\n  " + claim + "\n\ntheorem refuted : ¬ Claim := by\n  " +
        seed["proof"].replace("\n", "\n  ") + "\n#print axioms refuted\n")
    new = seed["old"].join(parts[:n + 1]) + seed["new"] + seed["old"].join(parts[n + 1:])
    open(path, "w").write(new)
    try:
        build = subprocess.run(["lake", "build"] + modules, cwd=scratch, capture_output=True, text=True)
        out = subprocess.run(["lake", "env", "lean", "Refute.lean"], cwd=scratch, capture_output=True, text=True)
    finally:
        open(path, "w").write(text)
    ok = build.returncode == 0 and out.returncode == 0 and "sorryAx" not in out.stdout
    print("refuted" if ok else "NOT REFUTED", "|", seed["definition"], "|", seed["edit"], "|", seed["theorem"], flush=True)
    if not ok:
        errors = [m for m in re.split(r"\n(?=Refute\.lean:)", out.stdout) if ": error" in m]
        print(build.stdout[-1500:] if build.returncode else "\n".join(errors)[:2500], flush=True)
    else:
        entry = {"definition": seed["definition"], "file": "lean/Verif/Model/" + seed["file"],
                 "edit": seed["edit"], "claim": seed["claim"], "theorems_failed": [seed["theorem"]],
                 "theorems_tightened": [],
                 "note": "the statement itself was refuted for the edited model (tools/refute.py): " + seed["proof"]}
        with open(log, "a") as f:
            f.write(json.dumps(entry, ensure_ascii=False) + "\n")
