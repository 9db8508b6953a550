#!/usr/bin/env python3
"""Mutation tests of the theorems.  Usage: mut.py FILE.py [n_workers] [out.jsonl]
FILE.py defines MUTS, a list of (module, definition, old, new, claim) where module is the basename of a
Model file; the Props modules that depend on it are re-elaborated in a scratch copy and every theorem of
the manifest is checked with `#print axioms` for dependence on an error."""
import sys, os, re, json, subprocess, shutil, runpy
from multiprocessing import Pool
V = os.path.dirname(os.path.dirname(os.path.abspath(__file__)))
S = "/tmp/mut"
def sh(cmd, cwd, t=1500):
    try:
        return subprocess.run(cmd, cwd=cwd, shell=True, capture_output=True, text=True, timeout=t)
    except subprocess.TimeoutExpired:
        class R: stdout = "TIMEOUT"; stderr = ""; returncode = 1
        return R
def imports(root, mod):
    f = os.path.join(root, mod.replace(".", "/") + ".lean")
    return [l.split()[1] for l in open(f) if l.startswith("import Verif")]
def allmods(root):
    r = []
    for d in ("Model", "Spec", "Lemmas", "Props"):
        for f in sorted(os.listdir(os.path.join(root, "Verif", d))):
            if f.endswith(".lean"): r.append("Verif.%s.%s" % (d, f[:-5]))
    return r
def decl_at(path, line):
    L = open(path).read().split("\n")
    for i in range(min(line, len(L)) - 1, -1, -1):
        m = re.match(r"(?:@\[[^\]]*\]\s*)?(?:private |protected |noncomputable )*(theorem|lemma|def|example|instance|structure|inductive|abbrev)\b\s*(\S*)", L[i])
        if m: return m.group(2) if m.group(1) not in ("example",) else "example:%d" % (i + 1)
    return "?"
def worker_init():
    pass
def run(job):
    k, (module, definition, old, new, claim) = job
    from multiprocessing import current_process
    w = current_process()._identity[0] if current_process()._identity else 0
    root = "%s/w%d" % (S, w)
    sh("mkdir -p %s; rm -rf %s; cp -a %s/lean %s" % (S, root, V, root), "/")
    mf = root + "/Verif/Model/%s.lean" % module
    s = open(mf).read()
    res = {"definition": "Model/%s.lean: %s" % (module, definition), "edit": "%s  -->  %s" % (old.strip(), new.strip()), "claim": claim}
    if s.count(old) < 1:
        res["error"] = "pattern not found"; return k, res
    # restrict to the text of the definition
    pos = re.search(r"(?m)^(?:def|theorem|structure|inductive|abbrev)\s+" + re.escape(definition) + r"(?=[\s:])", s)
    i = s.find(old, pos.start() if pos else 0)
    if i < 0:
        res["error"] = "pattern not found in definition"; return k, res
    open(mf, "w").write(s[:i] + new + s[i + len(old):])
    mods = allmods(root); imp = {m: imports(root, m) for m in mods}
    topo = []
    def tv(x):
        if x in topo: return
        for y in imp.get(x, []): tv(y)
        topo.append(x)
    for m in mods: tv(m)
    mods = topo
    target = "Verif.Model." + module
    dep = {target}
    for m in mods:
        if any(x in dep for x in imp[m]): dep.add(m)
    r = sh("lake build " + target, root)
    if r.returncode != 0:
        e = [l for l in r.stdout.split("\n") if "error:" in l][:2]
        res["error"] = "edited model does not compile: " + " ".join(e)[:300]; return k, res
    man = json.load(open(V + "/MANIFEST.json"))
    thms = {t for c in man["claims"] for t in c["theorems"]}
    failed = []; broken = set(); detail = []
    for m in mods:
        if m not in dep or m == target: continue
        path = root + "/" + m.replace(".", "/") + ".lean"
        own = open(path).read()
        if m.split(".")[1] in ("Spec", "Model") and any(x in broken for x in imp[m]):
            broken.add(m); continue
        # broken imports are inlined, so that the theorems that use them are still examined
        order = []; seen = set()
        def visit(x):
            if x in seen or x not in broken: return
            seen.add(x)
            for y in imp[x]: visit(y)
            order.append(x)
        for x in imp[m]: visit(x)
        if any(x.split(".")[1] in ("Spec", "Model") for x in order):
            broken.add(m); continue
        parts = [open(root + "/" + x.replace(".", "/") + ".lean").read() for x in order] + [own]
        ims = []
        for q in parts:
            for l in q.split("\n"):
                if l.startswith("import") and l.split()[1] not in broken and l not in ims: ims.append(l)
        txt = "\n".join(ims) + "\n" + "\n".join("\n".join(l for l in q.split("\n") if not l.startswith("import")) for q in parts)
        ns = re.findall(r"(?m)^namespace (\S+)", txt)
        names = re.findall(r"(?m)^theorem (\S+)", own)
        full = [t for t in sorted(thms) if any(t == n + "." + x for n in ns for x in names)]
        tmp = root + "/Tmp.lean"
        open(tmp, "w").write(txt + "\n" + "\n".join("#print axioms " + t for t in full) + "\n")
        if m.split(".")[1] in ("Spec", "Model"):
            r = sh("lake build " + m, root)
            if r.returncode != 0: broken.add(m); detail.append(m)
            continue
        for x in imp[m]:
            if x not in broken: sh("lake build " + x, root)
        for x in order:
            for y in imp[x]:
                if y not in broken: sh("lake build " + y, root)
        r = sh("lake env lean Tmp.lean", root)
        errs = sorted({decl_at(tmp, int(x)) for x in re.findall(r"Tmp\.lean:(\d+):\d+: error", r.stdout)})
        if "TIMEOUT" in r.stdout: errs.append("timeout")
        if errs:
            broken.add(m); detail += [m.split(".")[-1] + "." + x for x in errs]
        for t in full:
            q = re.search(r"'%s' (depends on axioms: \[([^\]]*)\]|does not depend)" % re.escape(t), r.stdout)
            if q is None or (q.group(2) and "sorry" + "Ax" in q.group(2)): failed.append(t)
    skipped = sorted(m for m in broken if not any(d.startswith(m.split(".")[-1] + ".") for d in detail))
    res["theorems_failed"] = failed
    res["declarations_with_errors"] = detail[:12]
    if skipped: res["modules_not_reached"] = skipped
    return k, res
if __name__ == "__main__":
    g = runpy.run_path(sys.argv[1]); muts = g["MUTS"]
    n = int(sys.argv[2]) if len(sys.argv) > 2 else 3
    out = sys.argv[3] if len(sys.argv) > 3 else "/tmp/mut_out.jsonl"
    with Pool(n) as p, open(out, "a") as o:
        for k, r in p.imap_unordered(run, list(enumerate(muts))):
            r["k"] = k
            o.write(json.dumps(r) + "\n"); o.flush()
            print(k, r["definition"], "ERR " + r["error"] if "error" in r else
                  ("SURVIVED" if not r["declarations_with_errors"] else "killed: " + " ".join(x.split(".")[-1] for x in r["theorems_failed"]) + " | " + " ".join(r["declarations_with_errors"][:4])), flush=True)
