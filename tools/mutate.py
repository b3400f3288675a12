#!/usr/bin/env python3
"""Mutation testing of the theorems.

usage: mutate.py MUTANTS.json [LOG.jsonl]

MUTANTS.json: list of {"file", "definition", "old", "new", "claim"}.  Each mutant is applied to a scratch copy of
/verif/lean, the copy is built, and the theorems in which errors occur are recorded, together with the property
modules that can no longer be built.

A mutant is killed only if a declaration outside the mutated definition fails.  If the mutated definition itself does
not compile, no theorem has been tested: the attempt is recorded with "invalid": true and "killed": false.  A killed
mutant shows that some proof no longer goes through, not that the statement has become false.
"""
import json, os, re, shutil, subprocess, sys

SRC = os.environ.get("MUTSRC", "/verif/lean")
TMP = os.environ.get("MUTDIR", "/tmp/mut/lean")


def sync():
    shutil.rmtree(TMP, ignore_errors=True)
    os.makedirs(os.path.dirname(TMP), exist_ok=True)
    subprocess.run(["cp", "-a", SRC, TMP], check=True)


def enclosing(path, line):
    name = None
    with open(path) as f:
        for n, l in enumerate(f, 1):
            if n > line:
                break
            m = re.match(r"(?:@\[[^\]]*\]\s*)?(?:private |protected |noncomputable )*(theorem|lemma|def|example|abbrev|instance|inductive|structure)\s*(\S*)", l)
            if m:
                name = m.group(2) if m.group(1) != "example" else "example (line %d)" % n
    return name


def imports():
    g = {}
    for d, _, fs in os.walk(os.path.join(SRC, "Verif")):
        for f in fs:
            p = os.path.join(d, f)
            mod = os.path.relpath(p, SRC)[:-5].replace("/", ".")
            with open(p) as h:
                g[mod] = re.findall(r"^import (Verif\S*)", h.read(), re.M)
    return g


def run(m):
    sync()
    p = os.path.join(TMP, m["file"])
    s = open(p).read()
    assert s.count(m["old"]) == m.get("count", 1), (m["file"], m["old"], s.count(m["old"]))
    open(p, "w").write(s.replace(m["old"], m["new"]))
    r = subprocess.run(["lake", "build"], cwd=TMP, capture_output=True, text=True)
    out = r.stdout + r.stderr
    failed, mods = [], set()
    for f, line in re.findall(r"error: (Verif/\S+?\.lean):(\d+)", out):
        t = enclosing(os.path.join(TMP, f), int(line))
        mods.add(f[:-5].replace("/", "."))
        t = "%s: %s" % (f, t)
        if t not in failed:
            failed.append(t)
    g = imports()
    bad = set(mods)
    ch = True
    while ch:
        ch = False
        for k, v in g.items():
            if k not in bad and any(x in bad for x in v):
                bad.add(k)
                ch = True
    blocked = sorted(x for x in bad if ".Props" in x and x not in mods)
    invalid = r.returncode != 0 and not any(not t.startswith(m["file"] + ":") for t in failed)
    return {"definition": m["definition"], "file": m["file"], "edit": {"old": m["old"], "new": m["new"]},
            "claim": m["claim"], "killed": r.returncode != 0 and not invalid, "invalid": invalid, "theorems_failed": failed,
            "property_modules_blocked": blocked, "theorems_tightened": m.get("tightened", [])}


def main():
    ms = json.load(open(sys.argv[1]))
    log = sys.argv[2] if len(sys.argv) > 2 else "/verif/seeded/LOG.jsonl"
    for m in ms:
        try:
            r = run(m)
        except AssertionError as e:
            print("BAD MUTANT", e, flush=True)
            continue
        with open(log, "a") as f:
            f.write(json.dumps(r, ensure_ascii=False) + "\n")
        print(r["claim"], r["definition"], "INVALID" if r["invalid"] else "KILLED" if r["killed"] else "SURVIVED", r["theorems_failed"][:3], flush=True)


main()
