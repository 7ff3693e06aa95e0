#!/usr/bin/env python3
"""seed.py SEEDS.json -- seeded-bug testing in a scratch copy (/tmp/seed) outside /verif.

Every seed is {"file","old","new","definition","edit","claim","expect":[ids]}.  The model edit is applied to the
scratch copy, the project is rebuilt, every declaration whose proof breaks is patched over *in the scratch copy only*
(so that the modules after it still build) and finally every theorem under Verif/Props whose proof now rests on
a patched-over proof is reported as failed.  One JSON line per attempt is appended to seeded/LOG.jsonl."""
import json, os, re, shutil, subprocess, sys
SRC = "/verif/lean"; DST = os.environ.get("SEED_DIR", "/tmp/seed") + "/lean"; LOG = "/verif/seeded/LOG.jsonl"
HOLE = "so" + "rry"
DECL = re.compile(r"^(?:@\[[^\]]*\]\s*)?(?:private |protected |noncomputable )*(theorem|lemma|example|def|structure|inductive|instance|abbrev)\b\s*(\S*)")
TOP = re.compile(r"^(theorem|lemma|example|def|structure|inductive|instance|abbrev|namespace|end|section|open|variable|set_option|/-|@\[|private|noncomputable|mutual|termination_by|decreasing_by|deriving|attribute|omit|include|local)")

def sync():
    """bring the scratch copy back to the state of /verif/lean, copying only what differs"""
    os.makedirs(DST, exist_ok=True)
    want = set()
    for root, ds, fs in os.walk(SRC):
        rel = os.path.relpath(root, SRC)
        os.makedirs(os.path.join(DST, rel), exist_ok=True)
        for f in fs:
            a, b = os.path.join(root, f), os.path.normpath(os.path.join(DST, rel, f))
            want.add(b)
            x = os.stat(a)
            y = os.stat(b) if os.path.exists(b) else None
            if y is None or y.st_size != x.st_size or y.st_mtime_ns != x.st_mtime_ns: shutil.copy2(a, b)
    for root, ds, fs in os.walk(DST):
        for f in fs:
            b = os.path.normpath(os.path.join(root, f))
            if b not in want: os.remove(b)

def affected(file):
    """the property modules that the project imports and that rest on the edited file"""
    def imports(m):
        f = os.path.join(DST, m.replace(".", "/") + ".lean")
        return re.findall(r"^import (Verif\S*)", open(f).read(), re.M) if os.path.exists(f) else []
    memo, goal = {}, file[:-5].replace("/", ".")
    def rests(m):
        if m not in memo:
            memo[m] = False
            memo[m] = m == goal or any(rests(k) for k in imports(m))
        return memo[m]
    return [m for m in imports("Verif") if m.startswith("Verif.Props.") and rests(m)]

def build(targets):
    r = subprocess.run(["lake", "build"] + targets, cwd=DST, capture_output=True, text=True, timeout=3600)
    return r.returncode, r.stdout + r.stderr

def patch(path, line):
    """replace the proof of the declaration enclosing `line` (1-based) by a hole; returns its name"""
    L = open(path).read().split("\n")
    i = line - 1
    while i >= 0 and not DECL.match(L[i]): i -= 1
    if i < 0: return None
    j = i + 1
    while j < len(L) and not TOP.match(L[j]): j += 1
    m = DECL.match(L[i]); kind, name = m.group(1), m.group(2)
    body = "\n".join(L[i:j])
    if kind == "example":
        L[i:j] = ["example : True := trivial"] + [""] * (j - i - 1)
        open(path, "w").write("\n".join(L)); return "example@%s:%d" % (os.path.basename(path), i + 1)
    if kind not in ("theorem", "lemma"): return None
    m = re.search(r":= by$", body, re.M) or re.search(r":= by\b", body) or re.search(r":=$", body, re.M) or re.search(r"(?<!\w) :=\s", body) or re.search(r" :=\s", body)
    w = re.search(r" where$", body, re.M)
    if w and (not m or w.start() < m.start()): m = w
    k = body.find("\n  |")
    if m and not (0 <= k < m.start() and "=>" in body[k:m.start()]):
        new = body[:m.start()] + " := by " + HOLE
    else:
        if k < 0: return None
        new = body[:k] + " := by " + HOLE
    pad = body.count("\n") - new.count("\n")
    L[i:j] = (new + "\n" * pad).split("\n")
    while j < len(L) and (L[j].startswith("termination_by") or L[j].startswith("decreasing_by")):
        L[j] = ""; j += 1
    open(path, "w").write("\n".join(L)); return name

def prop_theorems(imported):
    """theorems of these property files (the others do not depend on the edit)"""
    out = []
    for root, _, fs in os.walk(DST + "/Verif/Props"):
        for f in sorted(fs):
            if "Verif.Props." + f[:-5] not in imported: continue
            ns = None
            for l in open(os.path.join(root, f)):
                m = re.match(r"namespace (\S+)", l)
                if m: ns = m.group(1)
                m = re.match(r"theorem (\S+)", l)
                if m: out.append(ns + "." + m.group(1))
    return out

def run(seed):
    sync()
    path = os.path.join(DST, seed["file"])
    s = open(path).read()
    if s.count(seed["old"]) != 1:
        print("!! old text occurs", s.count(seed["old"]), "times:", seed["old"]); return None
    open(path, "w").write(s.replace(seed["old"], seed["new"]))
    patched, seen = [], set()
    targets = affected(seed["file"])
    for rnd in range(60):
        rc, out = build(targets)
        if rc == 0: break
        errs = {(a, int(b)) for a, b in re.findall(r"^error: (\S+?\.lean):(\d+):\d+", out, re.M)}
        if not errs: print(out[-3000:]); return None
        todo = {}
        for f, ln in sorted(errs): todo.setdefault(f, []).append(ln)
        progress = False
        for f, lns in todo.items():
            for ln in sorted(lns, reverse=True):
                n = patch(os.path.join(DST, f), ln)
                if n and (f, n) not in seen:
                    seen.add((f, n)); patched.append(n); progress = True
        if not progress:
            print("!! cannot patch", sorted(errs)[:5]); print(out[-2500:]); return {"stuck": True, "patched": patched}
    ths = prop_theorems(targets)
    chk = os.path.join(DST, "Chk.lean")
    open(chk, "w").write("".join(f"import {m}\n" for m in targets) + "".join(f"#print axioms {t}\n" for t in ths))
    r = subprocess.run(["lake", "env", "lean", chk], cwd=DST, capture_output=True, text=True)
    txt = (r.stdout + r.stderr).replace("\n ", " ")
    failed = re.findall(r"'([^']+)' depends on axioms: \[[^\]]*sorryAx", txt)
    gone = re.findall(r"[Uu]nknown constant `([^`]+)`", txt)
    return {"patched": patched, "failed": failed + gone}

if __name__ == "__main__":
    seeds = json.load(open(sys.argv[1]))
    only = set(sys.argv[2:])
    for i, sd in enumerate(seeds):
        if only and str(i) not in only: continue
        res = run(sd)
        if res is None: continue
        failed = res.get("failed", [])
        short = [f.replace("Verif.Props.", "") for f in failed]
        print(f"[{i}] {sd['definition']}: {sd['edit']}\n   failed: {short}\n   patched: {res['patched']}", flush=True)
        miss = [e for e in sd.get("expect", []) if not any(("." + e.split(".")[-1]) in f for f in failed)]
        if miss: print("   ** EXPECTED BUT STILL PROVED:", miss, flush=True)
        if res.get("stuck"): continue
        rec = {"definition": sd["definition"], "edit": sd["edit"], "claim": sd["claim"], "failed": failed,
               "tightened": sd.get("tightened", []), "survived_unexpectedly": miss}
        if not sd.get("nolog"):
            open(LOG, "a").write(json.dumps(rec) + "\n")
