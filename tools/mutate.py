#!/usr/bin/env python3
"""Apply each seeded bug of seeded/mutations.json to a scratch copy of the model, rebuild, and record which
theorems fail.  usage: mutate.py [first [last]]"""
import json, os, re, shutil, subprocess, sys
SRC = os.environ.get("BASE", "/verif/lean"); DST = "/tmp/mut/lean"; LOG = "/verif/seeded/LOG.jsonl"
muts = json.load(open("/verif/seeded/mutations.json"))
done = set()
if os.path.exists(LOG):
    done = {json.loads(l)["id"] for l in open(LOG)}
def decls(path):
    out = []
    ns = []
    for i, l in enumerate(open(path), 1):
        m = re.match(r'\s*(?:@\[[^\]]*\]\s*)?(?:private |protected |noncomputable )*(theorem|def|abbrev|instance|example|inductive|structure)\b\s*([^\s:({\[]*)', l)
        if m: out.append((i, m.group(1), m.group(2)))
    return out
def enclosing(path, line):
    best = None
    for i, k, n in decls(path):
        if i <= line: best = (k, n, i)
    return best
sel = [m for m in muts if m["id"] not in done]
if len(sys.argv) > 1: sel = [m for m in muts if m["id"] in sys.argv[1:]]
for m in sel:
    os.makedirs("/tmp/mut", exist_ok=True)
    subprocess.run(["rsync", "-a", "--delete", "--exclude", ".lake/build/ir", SRC + "/", DST + "/"]) if shutil.which("rsync") else (shutil.rmtree(DST, ignore_errors=True), shutil.copytree(SRC, DST, symlinks=True))
    f = os.path.join(DST, "Verif", m["file"])
    s = open(f).read()
    if s.count(m["old"]) < 1:
        print(m["id"], "OLD TEXT NOT FOUND"); continue
    s = s.replace(m["old"], m["new"], 1)
    open(f, "w").write(s)
    try:
        r = subprocess.run(["nice", "lake", "build"], cwd=DST, capture_output=True, text=True, timeout=3000)
        out = r.stdout + r.stderr
    except subprocess.TimeoutExpired as e:
        out = "TIMEOUT"; r = None
    failed = {}
    bad = set()
    if r is not None and r.returncode != 0 and not re.search(r'error: (Verif/[\w/]+\.lean):(\d+):', out):
        # a prover process was killed (a false `decide` may need too much memory): take the errors reported before that
        for mod in re.findall(r'^- (Verif[\w.]*)', out, re.M):
            path = mod.replace(".", "/") + ".lean"
            q = subprocess.run(["nice", "timeout", "600", "stdbuf", "-oL", "lake", "env", "lean", "-j", "1", path], cwd=DST, capture_output=True, text=True)
            for mm in re.finditer(r'^(Verif/[\w/]+\.lean):(\d+):\d+: error', q.stdout, re.M):
                out += "\nerror: %s:%s:" % (mm.group(1), mm.group(2))
            if "error: " + path not in out: out += "\nerror: %s:1:" % path
    for mm in re.finditer(r'error: (Verif/[\w/]+\.lean):(\d+):', out):
        e = enclosing(os.path.join(DST, mm.group(1)), int(mm.group(2)))
        bad.add(mm.group(1)[:-5].replace("/", "."))
        if e: failed["%s:%s" % (mm.group(1)[6:-5], e[1] or "%s@%d" % (e[0], e[2]))] = 1
    # modules that depend on a failed one
    imps = {}
    for root, _, fs in os.walk(os.path.join(DST, "Verif")):
        for x in fs:
            if x.endswith(".lean"):
                p = os.path.join(root, x)
                mod = "Verif" + p[len(os.path.join(DST, "Verif")):-5].replace("/", ".")
                imps[mod] = re.findall(r'^import (Verif[\w.]*)', open(p).read(), re.M)
    blocked = set(bad); ch = True
    while ch:
        ch = False
        for k, v in imps.items():
            if k not in blocked and any(x in blocked for x in v): blocked.add(k); ch = True
    blocked -= bad
    rec = {"id": m["id"], "definition": m["definition"], "edit": m["edit"], "claim": m["claim"],
           "failed": sorted(failed), "blocked_modules": sorted(b for b in blocked if ".Props." in b),
           "tightened": m.get("tightened", [])}
    if out == "TIMEOUT": rec["failed"] = ["TIMEOUT"]
    with open(LOG, "a") as g: g.write(json.dumps(rec, ensure_ascii=False) + "\n")
    print(m["id"], "SURVIVED" if not failed else "killed by " + ", ".join(sorted(failed)[:4]), flush=True)
