#!/usr/bin/env python3
"""Run seeded-bug experiments: seed.py MUTATIONS.json SCRATCHDIR

Each mutation is {"file", "old", "new", "definition", "claim"}.  The Lean project is copied to
SCRATCHDIR (outside /verif), the text is replaced there, the project is rebuilt, the failing
declarations are collected, and one line per attempt is appended to /verif/seeded/LOG.jsonl.

Outcomes: "survived" (everything still builds), "caught" (a proof fails), "invalid" (the edited model
does not elaborate or the build timed out: this says nothing about the theorems).  "level" is
"property" if a declaration of Verif/Props fails, and "lemma" if only supporting lemmas fail: lake does
not go on to the modules that import them, so the property theorems have not been tried."""
import json, os, re, subprocess, sys, shutil, fcntl

muts = json.load(open(sys.argv[1]))
scratch = sys.argv[2]
os.makedirs(scratch, exist_ok=True)
subprocess.run(["rsync", "-a", "--delete", "/verif/lean/", scratch + "/lean/"], check=False) \
    if shutil.which("rsync") else (shutil.rmtree(scratch + "/lean", ignore_errors=True),
                                   shutil.copytree("/verif/lean", scratch + "/lean", symlinks=True))
lean = scratch + "/lean"
subprocess.run(["lake", "build"], cwd=lean, capture_output=True)

def owner(path, line):
    src = open(os.path.join(lean, path)).read().split("\n")
    for k in range(min(line, len(src)) - 1, -1, -1):
        m = re.match(r"(?:@\[[^\]]*\]\s*)?(?:private |protected )?(theorem|def|example|instance|abbrev|inductive|structure)\s*([\w.'«»]*)", src[k])
        if m:
            return m.group(2) if m.group(1) != "example" else f"example {path}:{k+1}"
    return path

for mu in muts:
    f = os.path.join(lean, mu["file"])
    orig = open(f).read()
    if orig.count(mu["old"]) < 1:
        print("NOT FOUND", mu["definition"], mu["old"][:60]); continue
    if orig.count(mu["old"]) > 1 and not mu.get("first"):
        print("AMBIGUOUS", mu["definition"], mu["old"][:60]); continue
    open(f, "w").write(orig.replace(mu["old"], mu["new"], 1))
    try:
        r = subprocess.run(["lake", "build"], cwd=lean, capture_output=True, text=True, timeout=2400)
        out = r.stdout + r.stderr
    except subprocess.TimeoutExpired:
        out = "TIMEOUT"
        r = None
    failed, files = [], set()
    for m in re.finditer(r"error: (Verif/[\w/]+\.lean):(\d+):\d+", out):
        n = owner(m.group(1), int(m.group(2)))
        files.add(m.group(1))
        if n not in failed:
            failed.append(n)
    open(f, "w").write(orig)
    ok = r is not None and r.returncode == 0
    entry = {"definition": mu["definition"], "file": mu["file"],
             "edit": {"old": mu["old"], "new": mu["new"]},
             "claim": mu["claim"], "failed": failed, "tightened": mu.get("tightened", []),
             "outcome": "survived" if ok else "invalid" if not failed or
             any(x.startswith("Verif/Model/") for x in files) else "caught"}
    if entry["outcome"] == "caught":
        entry["level"] = "property" if any(x.startswith("Verif/Props/") for x in files) else "lemma"
    if mu.get("note"):
        entry["note"] = mu["note"]
    print(entry["outcome"].upper() + " " + entry.get("level", "") + " " + mu["definition"] + " :: " + ", ".join(failed[:6]), flush=True)
    if ok and not mu.get("log_survivor"):
        entry["note"] = "to be examined"
    with open("/verif/seeded/LOG.jsonl", "a") as g:
        fcntl.flock(g, fcntl.LOCK_EX)
        g.write(json.dumps(entry) + "\n")
