#!/usr/bin/env python3
"""Apply one edit to the model in a scratch copy, rebuild, record which declarations fail.

usage: mutate.py FILE.json   (a list of {"file", "definition", "old", "new", "claim", "edit", "count"?})
The scratch copy is /tmp/scratch/lean; it is synchronised before each edit from /tmp/snap,
a checkout of the last commit of /verif.  One run at a time: others wait for /tmp/mutate.lock.  With "check" as second argument only tests that the edits apply.
Appends one line per attempt to /verif/seeded/LOG.jsonl.
"""
import fcntl, json, os, re, subprocess, sys, time
SRC, DST, LOG = "/tmp/snap/lean", "/tmp/scratch/lean", "/verif/seeded/LOG.jsonl"

def sync():
    for root, dirs, files in os.walk(SRC):
        dirs[:] = [d for d in dirs if d != ".lake"]
        for f in files:
            a = os.path.join(root, f); b = os.path.join(DST, os.path.relpath(a, SRC))
            os.makedirs(os.path.dirname(b), exist_ok=True)
            x = open(a, "rb").read()
            if not os.path.exists(b) or open(b, "rb").read() != x:
                open(b, "wb").write(x)

def decl_at(path, line):
    name, ns = None, []
    for i, l in enumerate(open(path), 1):
        if i > line: break
        m = re.match(r"\s*(?:private |protected |noncomputable |@\[[^\]]*\] ?)*(theorem|lemma|def|instance|example|abbrev|structure)\s+([^\s:({\[]+)?", l)
        if m: name = m.group(2) if m.group(1) != "example" else "example@%d" % i
    return name

def run(job):
    sync()
    p = os.path.join(DST, job["file"])
    t = open(p).read()
    n = t.count(job["old"])
    if n != job.get("count", 1):
        print("SKIP: old text occurs %d times: %s" % (n, job["old"])); return
    if "check" in sys.argv[2:]: return
    open(p, "w").write(t.replace(job["old"], job["new"]))
    t0 = time.time()
    r = subprocess.run(["lake", "build"], cwd=DST, capture_output=True, text=True)
    out = r.stdout + r.stderr
    failed, mods = [], []
    for m in re.finditer(r"error: (Verif/\S+\.lean):(\d+):", out):
        d = decl_at(os.path.join(DST, m.group(1)), int(m.group(2)))
        e = "%s:%s" % (m.group(1)[6:-5].replace("/", "."), d)
        if e not in failed: failed.append(e)
    for m in re.finditer(r"^- (Verif\S*)", out, re.M):
        if m.group(1) not in mods: mods.append(m.group(1))
    rec = {"definition": job["definition"], "edit": job["edit"], "claim": job["claim"], "failed": failed,
           "tightened": job.get("tightened", [])}
    if r.returncode == 0: rec["survived"] = True
    if job.get("note"): rec["note"] = job["note"]
    if "dry" not in sys.argv[2:]:
        open(LOG, "a").write(json.dumps(rec, ensure_ascii=False) + "\n")
    print(("SURVIVED " if r.returncode == 0 else "killed   ") + "[%ds] %s | %s | %s" % (time.time() - t0, job["definition"], job["edit"], ", ".join(failed)[:300]))
    sys.stdout.flush()

lock = open("/tmp/mutate.lock", "w"); fcntl.flock(lock, fcntl.LOCK_EX)
subprocess.run("mkdir -p /tmp/snap && rm -rf /tmp/snap/lean && git -C /verif archive HEAD lean | tar x -C /tmp/snap", shell=True, check=True)
for job in json.load(open(sys.argv[1])):
    run(job)
sync()
