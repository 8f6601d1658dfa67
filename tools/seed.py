#!/usr/bin/env python3
"""Run seeded wrong programs against the theorems.

usage: seed.py SEEDS.json DEPS.txt SCRATCH LOG

SCRATCH is a copy of /verif/lean with its build output, and SCRATCH/../build.clean
a copy of that output.  SEEDS is a list of {definition, file, old, new, nth, edit,
claim, expect}; the edit is made in SCRATCH, the project is rebuilt, and the
declarations with errors are collected.  DEPS has a line per property theorem: its
name, a tab and the constants it depends on; a theorem fails when it, or anything
it depends on, does.  `expect` names the properties of which a theorem should fail.
"""
import json, os, re, subprocess, sys

seeds, deps, scratch, log = sys.argv[1:5]
DEPS = {}
for line in open(deps):
    name, rest = line.rstrip("\n").split("\t")
    DEPS[name] = set(x for x in rest.split()) | {name}

def suffixes(name):
    parts = name.split(".")
    return [".".join(parts[i:]) for i in range(len(parts))]

SUFFIXES = {name: set(s for c in cs for s in suffixes(c)) for name, cs in DEPS.items()}
DECL = re.compile(r"^(?:@\[[^\]]*\]\s*)?(?:private |protected |noncomputable )*"
                  r"(theorem|lemma|def|abbrev|instance|example|structure|inductive)\s*([^\s:({\[]*)")

def enclosing(path, line):
    lines = open(path).read().split("\n")
    for i in range(min(line, len(lines)) - 1, -1, -1):
        m = DECL.match(lines[i])
        if m:
            if m.group(1) == "example":
                # a concrete case belongs to the theorem in front of it
                for j in range(i - 1, -1, -1):
                    n = DECL.match(lines[j])
                    if n and n.group(1) != "example":
                        return "example", n.group(2)
                return "example", "?"
            return m.group(1), m.group(2) or "?"
    return "?", "?"

def clean():
    build = os.path.join(scratch, ".lake/build")
    subprocess.run(["rm", "-rf", build], check=True)
    subprocess.run(["cp", "-a", os.path.join(scratch, "..", "build.clean"), build], check=True)

for seed in json.load(open(seeds)):
    path = os.path.join(scratch, "Verif", "Model", seed["file"])
    text = open(path).read()
    parts = text.split(seed["old"])
    n = seed.get("nth", 0)
    if len(parts) < 2 + n or (len(parts) > 2 and "nth" not in seed):
        print("BAD SEED", seed["definition"], seed["old"], len(parts) - 1, flush=True)
        continue
    new = seed["old"].join(parts[:n + 1]) + seed["new"] + seed["old"].join(parts[n + 1:])
    open(path, "w").write(new)
    try:
        out = subprocess.run(["lake", "build"], cwd=scratch, capture_output=True, text=True).stdout
    finally:
        open(path, "w").write(text)
        clean()
    failed, examples, model = set(), set(), []
    for m in re.finditer(r"^error: ([^\s:]+\.lean):(\d+):\d+: (.*)$", out, re.M):
        kind, name = enclosing(os.path.join(scratch, m.group(1)), int(m.group(2)))
        if "/Model/" in m.group(1):
            model.append(m.group(0))
        elif kind == "example":
            examples.add(name)
        else:
            failed.add(name)
    broken = sorted(t.split(".")[-1] for t, cs in SUFFIXES.items() if cs & failed)
    claims = sorted(set(re.match(r"C\d+", b).group(0) for b in broken if re.match(r"C\d+", b)))
    missing = [c for c in seed["expect"] if c not in claims]
    entry = {"definition": seed["definition"], "file": "lean/Verif/Model/" + seed["file"],
             "edit": seed["edit"], "claim": seed["claim"],
             "failed_declarations": sorted(failed), "failed_examples": sorted(examples),
             "theorems_failed": broken, "theorems_tightened": seed.get("tightened", [])}
    if model:
        entry["note"] = "the edited model does not elaborate: " + model[0][:300]
    status = "MODEL ERROR" if model else ("MISSED " + ",".join(missing) if missing else "caught")
    print(status, "|", seed["definition"], "|", seed["edit"], "|", sorted(failed), "|", claims, flush=True)
    if not model:
        with open(log, "a") as f:
            f.write(json.dumps(entry, ensure_ascii=False) + "\n")
