#!/usr/bin/env python3
"""Make small edits everywhere in the model, one at a time, and look for edits that no
proof notices.

usage: [LINES=1] mutate.py SCRATCH LOG SEED COUNT [FILE...]

SCRATCH is a copy of /verif/lean with its build output, and SCRATCH/../build.clean a
copy of that output.  An edit replaces a literal by its successor, or a comparison, a
connective, a sum or a truth value by another one.  With LINES set, an edit leaves out a
line of a definition, exchanges it with the next one, exchanges two arguments or puts one
name in place of another that the same definition has.  LOG gets a line per edit: the module
that failed first, or "survived".
"""
import json, os, random, re, subprocess, sys

scratch, log, seed, count = sys.argv[1], sys.argv[2], int(sys.argv[3]), int(sys.argv[4])
model = os.path.join(scratch, "Verif", "Model")
files = sys.argv[5:] or [f for f in sorted(os.listdir(model)) if f != "Tables.lean"]
SWAPS = {"<": "≤", "≤": "<", ">": "≥", "≥": ">", "≠": "=", "=": "≠", "∧": "∨", "∨": "∧", "&&": "||", "||": "&&",
         "+": "-", "-": "+", "true": "false", "false": "true"}
TOKEN = re.compile(r"(?<![\w.])(0x[0-9a-f]+|\d+)(?![\w.])|(?<= )(<|≤|>|≥|≠|=|∧|∨|&&|\|\||\+|-)(?= )|\b(true|false)\b")

def strip(text):
    """Blank out the comments."""
    text = re.sub(r"/-.*?-/", lambda m: re.sub(r"[^\n]", " ", m.group(0)), text, flags=re.S)
    return re.sub(r"--.*", lambda m: " " * len(m.group(0)), text)

WORDS = ("do", "let", "if", "then", "else", "match", "with", "fun", "return", "pure", "mut", "for", "in", "by", "exact", "where", "termination_by", "decreasing_by", "have", "rfl", "omega", "simp")

def lines(f, text):
    """The edits of whole lines and of names."""
    spans = [(m.start(), m.end()) for m in re.finditer(r"[^\n]*\n", text)]
    starts = [k for k, (i, j) in enumerate(spans) if re.match(r"(@\[|private |def |instance |abbrev )", text[i:j])]
    for s, e in zip(starts, starts[1:] + [len(spans)]):
        body = [k for k in range(s + 1, e) if text[spans[k][0]:spans[k][1]].strip() and text[spans[k][0]] == " "]
        for a, b in zip(body, body[1:] + [None]):
            i, j = spans[a]
            yield f, i, j, text[i:j], ""
            if b == a + 1:
                n = spans[b][1]
                x, y = text[i:j], text[j:n]
                if len(x) - len(x.lstrip()) == len(y) - len(y.lstrip()) and x != y:
                    yield f, i, n, x + y, y + x
        if not body:
            continue
        whole = text[spans[s][0]:spans[body[-1]][1]]
        names = sorted(set(n for n in re.findall(r"(?<![\w.])[a-z]\w*(?:\.[a-z]\w*)*|(?<= )\.[a-z]\w*", text[spans[body[0]][0]:spans[body[-1]][1]]) if n not in WORDS))
        for m in re.finditer(r"(?<![\w.])[a-z]\w*(?:\.[a-z]\w*)*|(?<= )\.[a-z]\w*", whole):
            old, at = m.group(0), spans[s][0] + m.start()
            if at < spans[body[0]][0] or old in WORDS:
                continue
            for new in names:
                if new != old and (new[0] == ".") == (old[0] == "."):
                    yield f, at, at + len(old), old, new
        for m in re.finditer(r"(?<![\w.])(\w+(?:\.\w+)*|\([^()]*\)) (\w+(?:\.\w+)*|\([^()]*\))(?![\w.])", text[spans[body[0]][0]:spans[body[-1]][1]]):
            at = spans[body[0]][0]
            if m.group(1) != m.group(2):
                yield f, at + m.start(), at + m.end(), m.group(0), m.group(2) + " " + m.group(1)

edits = []
for f in files:
    text = strip(open(os.path.join(model, f)).read())
    if os.environ.get("LINES"):
        edits += lines(f, text)
        continue
    for m in TOKEN.finditer(text):
        old = m.group(0)
        new = SWAPS.get(old) or (hex(int(old, 16) + 1) if old.startswith("0x") else str(int(old) + 1))
        edits.append((f, m.start(), m.end(), old, new))
random.Random(seed).shuffle(edits)
if os.environ.get("LINES"):
    whole = [e for e in edits if "\n" in e[3]]
    names = [e for e in edits if "\n" not in e[3]]
    edits = [e for p in zip(whole, names[0::6], names[1::6], names[2::6], names[3::6], names[4::6], names[5::6]) for e in p]
print(len(edits), "edits", flush=True)
done = set()
if os.path.exists(log):
    for line in open(log):
        d = json.loads(line)
        done.add((d["file"], d["start"], d["new"]))

def clean():
    build = os.path.join(scratch, ".lake/build")
    subprocess.run(["rm", "-rf", build], check=True)
    subprocess.run(["cp", "-a", os.path.join(scratch, "..", "build.clean"), build], check=True)

made = 0
for f, i, j, old, new in edits:
    if made == count:
        break
    if (f, i, new) in done:
        continue
    path = os.path.join(model, f)
    text = open(path).read()
    edited = text[:i] + new + text[j:]
    line = text.count("\n", 0, i) + 1
    open(path, "w").write(edited)
    if os.environ.get("LINES") and subprocess.run(["lake", "env", "lean", "-DmaxRecDepth=1000", path], cwd=scratch,
                                                  stdout=subprocess.DEVNULL, stderr=subprocess.DEVNULL).returncode != 0:
        open(path, "w").write(text)
        continue
    made += 1
    outcome = "survived"
    p = subprocess.Popen(["lake", "build"], cwd=scratch, stdout=subprocess.PIPE, stderr=subprocess.STDOUT, text=True,
                         start_new_session=True)
    for out in p.stdout:
        m = re.match(r"error: (Verif/\S+?\.lean):(\d+)", out)
        if m:
            outcome = m.group(1) + ":" + m.group(2)
            os.killpg(p.pid, 9)
            break
    p.wait()
    if outcome == "survived" and p.returncode != 0:
        outcome = "failed"
    open(path, "w").write(text)
    clean()
    entry = dict(file=f, line=line, start=i, old=old, new=new, text=edited.split("\n")[line - 1].strip(), outcome=outcome)
    with open(log, "a") as g:
        g.write(json.dumps(entry, ensure_ascii=False) + "\n")
    print(outcome, f, line, entry["text"][:100], flush=True)
