#!/usr/bin/env python3
"""Append the results of a mutation run to seeded/LOG.jsonl.

usage: logmut.py RESULTS.jsonl [NOTES.json]
NOTES.json maps a mutant id to the text for "tightened".
"""
import json, os, sys

LOG = os.path.join(os.path.dirname(os.path.dirname(os.path.abspath(__file__))), "seeded", "LOG.jsonl")
notes = json.load(open(sys.argv[2])) if len(sys.argv) > 2 else {}
with open(LOG, "a") as log:
    for line in open(sys.argv[1]):
        r = json.loads(line)
        if "error" in r:
            print(r)
            continue
        log.write(json.dumps({"definition": r["definition"] if ": " in r["definition"] else r["file"] + ": " + r["definition"], "edit": r["edit"], "claim": r["claim"],
                              "survived": r["survived"], "failed": r["failed"],
                              "tightened": notes.get(r["id"], "")}) + "\n")
        if r["survived"]:
            print("survived", r["id"], r["definition"])
