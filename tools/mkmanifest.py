#!/usr/bin/env python3
"""Regenerates MANIFEST.json.  Theorem names are collected from Verif/Props by their Cnn_
prefix; status and note come from the table below."""
import json, os, re, sys
root = os.path.join(os.path.dirname(os.path.abspath(__file__)), "..")
names = {}
for d, _, fs in os.walk(os.path.join(root, "lean/Verif/Props")):
    for f in sorted(fs):
        if not f.endswith(".lean"):
            continue
        stack = []
        for line in open(os.path.join(d, f)):
            m = re.match(r"(namespace|section|mutual|end)(?=\s) *([\w.]*) *$", line)
            if m and m.group(1) == "end":
                stack.pop()
            elif m:
                stack.append(m.group(2) if m.group(1) == "namespace" else "")
            m = re.match(r"theorem (C\d\d)(_\w+)", line)
            if m:
                names.setdefault(m.group(1), []).append(".".join([x for x in stack if x] + [m.group(1) + m.group(2)]))
NOTES = json.load(open(os.path.join(root, "tools/notes.json")))
ids = [json.loads(l)["id"] for l in open(os.path.join(root, "properties.jsonl"))]
claims = []
for i in ids:
    if i not in names:
        if i in NOTES and NOTES[i][0] == "not_applicable":
            claims.append(dict(property=i, status="not_applicable", theorems=[], note=NOTES[i][1]))
        else:
            print("no theorem for", i, file=sys.stderr)
        continue
    if i not in NOTES:
        print("no note for", i, file=sys.stderr)
    st, note = NOTES.get(i, ("partial", ""))
    claims.append(dict(property=i, status=st, theorems=names[i], note=note))
for i in names:
    if i not in ids:
        print("theorem without property", i, file=sys.stderr)
json.dump(dict(claims=claims), open(os.path.join(root, "MANIFEST.json"), "w"), indent=1, ensure_ascii=False)
open(os.path.join(root, "MANIFEST.json"), "a").write("\n")
