#!/usr/bin/env python3
"""Mutation test: apply one edit to a scratch copy of the Lean project, build, report what fails.

usage: mutate.py MUTANTS.json [ids...]
MUTANTS.json is a list of {id, file, def, old, new, claim, targets}; `old` must occur exactly once.
The scratch copy is /tmp/mut/lean.  Results go to /tmp/mut/results.jsonl.
"""
import json, os, re, subprocess, sys, shutil

SRC, DST = "/verif/lean", "/tmp/mut/lean"
DECL = re.compile(r"^(?:private |protected |@\[[^\]]*\] *)*(theorem|lemma|def|example|instance|abbrev|inductive|structure)\s*([^\s:({\[]*)")

def sync():
    os.makedirs("/tmp/mut", exist_ok=True)
    subprocess.run(["rsync", "-a", "--delete", SRC + "/", DST + "/"]) if shutil.which("rsync") else (
        shutil.rmtree(DST, ignore_errors=True), subprocess.run(["cp", "-a", SRC, DST]))

def enclosing(path, line):
    ls = open(path).read().split("\n")
    for i in range(min(line, len(ls)) - 1, -1, -1):
        m = DECL.match(ls[i])
        if m:
            return m.group(2) or m.group(1)
    return "?"

def run(m):
    p = os.path.join(DST, "Verif", m["file"])
    orig = open(p).read()
    n = orig.count(m["old"])
    if n != 1:
        return {"id": m["id"], "error": f"old occurs {n} times"}
    open(p, "w").write(orig.replace(m["old"], m["new"]))
    try:
        r = subprocess.run(["lake", "build"] + m.get("targets", ["Verif"]), cwd=DST,
                           capture_output=True, text=True)
        out = r.stdout + r.stderr
        failed = []
        for f, l in re.findall(r"error: (?:\./)*(Verif/[\w/]+\.lean):(\d+)", out):
            d = enclosing(os.path.join(DST, f), int(l))
            if (f, d) not in failed:
                failed.append((f, d))
        return {"id": m["id"], "file": m["file"], "definition": m["def"], "edit": m["old"] + "  ==>  " + m["new"],
                "claim": m["claim"], "survived": r.returncode == 0, "failed": [d + " (" + f + ")" for f, d in failed]}
    finally:
        open(p, "w").write(orig)

if __name__ == "__main__":
    ms = json.load(open(sys.argv[1]))
    want = sys.argv[2:]
    sync()
    for m in ms:
        if want and m["id"] not in want:
            continue
        res = run(m)
        print(json.dumps(res), flush=True)
        open("/tmp/mut/results.jsonl", "a").write(json.dumps(res) + "\n")
