#!/usr/bin/env python3
"""Systematic seeded bugs: automutate.py SCRATCHDIR SEED COUNT [FILE ...]

Takes definitions of Verif/Model that the log does not mention yet, edits one place of each by a fixed
rule (a number plus one, < for ≤, + for -, && for ||, true for false, exchanged branches, ...), checks
that the edited model still elaborates, and builds until the first proof fails.  One line per attempt
is appended to /verif/seeded/LOG.jsonl ("failed" then holds the first failing declaration only).
Survivors are printed and logged with the note "to be examined"."""
import json, os, re, subprocess, sys, shutil, fcntl, random, glob, signal

scratch, seed, count = sys.argv[1], int(sys.argv[2]), int(sys.argv[3])
only = sys.argv[4:]
rnd = random.Random(seed)
lean, pristine = scratch + "/lean", scratch + "/pristine"
shutil.rmtree(lean, ignore_errors=True)
os.makedirs(scratch, exist_ok=True)
shutil.copytree("/verif/lean", lean, symlinks=True)
subprocess.run(["lake", "build"], cwd=lean, capture_output=True)
shutil.rmtree(pristine, ignore_errors=True)
shutil.copytree(lean + "/.lake/build", pristine, symlinks=True)

def restore():
    for d, _, fs in os.walk(pristine):
        for x in fs:
            a = os.path.join(d, x); b = lean + "/.lake/build" + a[len(pristine):]
            sa = os.stat(a)
            if not os.path.exists(b) or os.stat(b).st_mtime_ns != sa.st_mtime_ns or os.stat(b).st_size != sa.st_size:
                shutil.copy2(a, b)

def owner(path, line):
    src = open(os.path.join(lean, path)).read().split("\n")
    for k in range(min(line, len(src)) - 1, -1, -1):
        m = re.match(r"(?:@\[[^\]]*\]\s*)?(?:private |protected )?(theorem|def|example|instance|abbrev|inductive|structure)\s*([\w.'«»]*)", src[k])
        if m:
            return m.group(2) if m.group(1) != "example" else f"example {path}:{k+1}"
    return path

RULES = [(r"(?<![\w.#])(\d+)(?![\w#.])", lambda m: str(int(m.group(1)) + 1)),
         (r"(?<![\w.])(\d+)(?=#\d)", lambda m: str(int(m.group(1)) + 1)),
         (r" < ", lambda m: " ≤ "), (r" ≤ ", lambda m: " < "), (r" > ", lambda m: " ≥ "), (r" ≥ ", lambda m: " > "),
         (r" \+ ", lambda m: " - "), (r" - ", lambda m: " + "), (r" \* ", lambda m: " + "),
         (r" && ", lambda m: " || "), (r" \|\| ", lambda m: " && "), (r" ∧ ", lambda m: " ∨ "), (r" ∨ ", lambda m: " ∧ "),
         (r"\btrue\b", lambda m: "false"), (r"\bfalse\b", lambda m: "true"),
         (r" = ", lambda m: " ≠ "), (r" ≠ ", lambda m: " = "), (r" == ", lambda m: " != "),
         (r"\.signExtend", lambda m: ".zeroExtend"), (r"\.zeroExtend", lambda m: ".signExtend"),
         (r"\btoInt\b", lambda m: "toNat"), (r" \+\+ ", None)]

log = [json.loads(l) for l in open("/verif/seeded/LOG.jsonl")]
seen = " ".join(str(e.get("definition")) for e in log)
cands = []
for f in sorted(glob.glob(lean + "/Verif/Model/*.lean")):
    if only and os.path.basename(f) not in only: continue
    src = open(f).read()
    ms = list(re.finditer(r"^(?:private )?def ([\w.']+)", src, re.M))
    for m in ms:
        nm = m.group(1)
        if re.search(r"(?<!\w)" + re.escape(nm.split(".")[-1]) + r"(?!\w)", seen): continue
        e = re.search(r"\n(?=/--|def |private def |theorem |end |namespace |structure |inductive |abbrev |instance |@\[|/-!|section|mutual|set_option|open )", src[m.end():])
        end = m.end() + (e.start() if e else len(src) - m.end())
        cands.append((f[len(lean) + 1:], nm, m.start(), end))
rnd.shuffle(cands)
print(len(cands), "definitions not yet edited", flush=True)

def body_start(text):
    i = text.find(":=")
    j = text.find("\n  |")
    c = [x for x in (i, j) if x >= 0]
    return min(c) if c else 0

done = 0
for (path, nm, a, b) in cands:
    if done >= count: break
    f = os.path.join(lean, path)
    orig = open(f).read()
    text = orig[a:b]
    s0 = body_start(text)
    if s0 == text.find(":="): s0 += 2
    places = []
    for pat, fn in RULES:
        if fn is None: continue
        for m in re.finditer(pat, text[s0:]):
            # leave comments alone
            ln = text.rfind("\n", 0, s0 + m.start()) + 1
            if "--" in text[ln:s0 + m.start()]: continue
            if "let " in text[ln:s0 + m.start() + 1] and pat == r" = ": continue
            places.append((s0 + m.start(), s0 + m.end(), fn(m), pat))
    if not places: continue
    rnd.shuffle(places)
    for (x, y, new, pat) in places[:4]:
        mut = orig[:a] + text[:x] + new + text[y:] + orig[b:]
        open(f, "w").write(mut)
        mod = path[:-5].replace("/", ".")
        r = subprocess.run(["lake", "build", mod], cwd=lean, capture_output=True, text=True, timeout=900)
        if r.returncode == 0: break
    else:
        open(f, "w").write(orig); restore(); continue
    ln0 = text.rfind("\n", 0, x) + 1
    ln1 = text.find("\n", y); ln1 = len(text) if ln1 < 0 else ln1
    p = subprocess.Popen(["lake", "build"], cwd=lean, stdout=subprocess.PIPE, stderr=subprocess.STDOUT, text=True, start_new_session=True)
    failed = None
    for line in p.stdout:
        m = re.match(r"error: (Verif/[\w/]+\.lean):(\d+):\d+", line)
        if m:
            failed = (m.group(1), owner(m.group(1), int(m.group(2))))
            os.killpg(p.pid, signal.SIGKILL); break
    p.wait()
    subprocess.run(["pkill", "-f", "^lean .*" + re.escape(lean)])
    open(f, "w").write(orig); restore()
    done += 1
    entry = {"definition": nm, "file": path, "edit": {"old": text[ln0:ln1].strip(), "new": (text[ln0:x] + new + text[y:ln1]).strip()},
             "claim": "automatic edit of " + nm, "failed": [failed[1]] if failed else [], "tightened": [],
             "outcome": "caught" if failed else ("survived" if p.returncode == 0 else "invalid")}
    if failed:
        entry["level"] = "property" if failed[0].startswith("Verif/Props/") else ("model" if failed[0].startswith("Verif/Model/") else "lemma")
    else: entry["note"] = "to be examined"
    print(entry["outcome"].upper(), entry.get("level", ""), path, nm, "|", entry["edit"]["old"][:90], "=>", entry["edit"]["new"][:90], "::", failed[1] if failed else "", flush=True)
    with open("/verif/seeded/LOG.jsonl", "a") as g:
        fcntl.flock(g, fcntl.LOCK_EX)
        g.write(json.dumps(entry) + "\n")
