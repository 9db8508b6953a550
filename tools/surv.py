#!/usr/bin/env python3
"""List mutants that survived or failed to apply.  Usage: surv.py out.jsonl"""
import json, sys
for l in open(sys.argv[1]):
    d = json.loads(l)
    if d.get('error') or not d.get('theorems_failed'):
        print(d['definition'], '|', d['edit'][:150], '|', d['claim'], '|', str(d.get('error', 'SURVIVED'))[:120])
