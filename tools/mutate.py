#!/usr/bin/env python3
"""Apply seeded bugs to a scratch copy of the Lean project, rebuild it and log which theorems fail.

usage: mutate.py FILE.json [--log]
The working tree is copied once at the start, so that it can be edited meanwhile.
FILE.json: list of {"file", "def", "old", "new", "edit", "breaks", "note"?}; "old" must occur exactly once in the file.
"""
import json, os, re, subprocess, sys
ROOT = os.path.join(os.path.dirname(os.path.abspath(__file__)), "..")
SCRATCH = os.environ.get("MUT_DIR", "/tmp/mut")

def copy(a, b):
    subprocess.run("mkdir -p %s && rm -rf %s/lean && cp -a %s/lean %s/" % (b, b, a, b), shell=True, check=True)

def theorem_at(path, line):
    name = None
    for i, l in enumerate(open(path), 1):
        if i > line: break
        m = re.match(r"(?:private |noncomputable |@\[[^\]]*\] )*(theorem|def|example|instance|lemma)\s*([\w.'✝]*)", l)
        if m: name = m.group(2) or m.group(1) + "@" + str(i)
    return name

def run(m):
    copy(SCRATCH + "/base", SCRATCH)
    p = os.path.join(SCRATCH, "lean", m["file"])
    s = open(p).read()
    assert s.count(m["old"]) == m.get("count", 1), (m["def"], s.count(m["old"]))
    open(p, "w").write(s.replace(m["old"], m["new"]))
    r = subprocess.run(["lake", "build"], cwd=SCRATCH + "/lean", capture_output=True, text=True)
    out = r.stdout + r.stderr
    fails = []
    for f, l in re.findall(r"^error: (Verif/[\w/]+\.lean):(\d+):", out, re.M):
        t = theorem_at(os.path.join(SCRATCH, "lean", f), int(l))
        e = "%s (%s)" % (t, f[6:-5])
        if e not in fails: fails.append(e)
    if r.returncode != 0 and not fails:
        # e.g. killed for lack of memory: says nothing about the mutant
        return None, out
    return r.returncode != 0, fails

if __name__ == "__main__":
    copy(ROOT, SCRATCH + "/base")
    for m in json.load(open(sys.argv[1])):
        bad, fails = run(m)
        if bad is None:
            print("build failed without an error in a module, not logged:", m["def"], m["edit"], fails[-600:], flush=True)
            continue
        rec = {"definition": m["def"], "edit": m["edit"], "breaks": m["breaks"], "caught": bad,
               "theorems_failed": fails, "theorems_tightened": m.get("tightened", [])}
        if m.get("note"): rec["note"] = m["note"]
        print(json.dumps(rec), flush=True)
        if "--log" in sys.argv:
            with open(os.path.join(ROOT, "seeded", "LOG.jsonl"), "a") as f: f.write(json.dumps(rec) + "\n")
