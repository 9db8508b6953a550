#!/usr/bin/env python3
"""Append mutation results (files given) to seeded/LOG.jsonl; TIGHT maps (definition, edit) to tightened theorems."""
import json, sys, os
V = os.path.dirname(os.path.dirname(os.path.abspath(__file__)))
out = open(V + "/seeded/LOG.jsonl", "a")
tight = {}
args = sys.argv[1:]
if args and args[0].endswith(".tight.json"):
    tight = {tuple(k): v for k, v in json.load(open(args[0]))}; args = args[1:]
n = 0
for f in args:
    for l in open(f):
        r = json.loads(l)
        if "error" in r: continue
        e = {"definition": r["definition"], "edit": r["edit"], "claim_broken": r["claim"],
             "theorems_failed": r["theorems_failed"], "declarations_with_errors": r["declarations_with_errors"][:6],
             "theorems_tightened": tight.get((r["definition"], r["edit"]), [])}
        if not r["declarations_with_errors"]:
            e["note"] = r.get("note", "survived")
        out.write(json.dumps(e) + "\n"); n += 1
print(n)
