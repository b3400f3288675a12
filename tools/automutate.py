#!/usr/bin/env python3
"""Automatic mutation testing.

usage: automutate.py CANDIDATES.json OUT.jsonl

CANDIDATES.json: list of [file, definition, [[path, definition, old, new, label], ...]].  For each definition the first
candidate edits that compile (MAXPER of them) are applied to a scratch copy of MUTSRC, and the copy is built until the
first error outside the mutated file.  Only this first failure is recorded ("first_failure_only": true).
If the mutated file itself fails, the edit counts as killed when the first error is in a theorem or example, and is
skipped (reported as INVALID, not logged) when it is in a definition.
"""
import json, os, re, shutil, signal, subprocess, sys

SRC = os.environ.get("MUTSRC", "/tmp/mut/base")
TMP = os.environ.get("MUTDIR", "/tmp/mut/auto")
MAXPER = int(os.environ.get("MAXPER", "1"))


def enclosing(path, line, want_kind=False):
    name = kind = None
    with open(path) as f:
        for n, l in enumerate(f, 1):
            if n > line:
                break
            m = re.match(r"(?:@\[[^\]]*\]\s*)?(?:private |protected |noncomputable )*(theorem|lemma|def|example|abbrev|instance|inductive|structure)\s*(\S*)", l)
            if m:
                name = m.group(2) if m.group(1) != "example" else "example (line %d)" % n
                kind = m.group(1)
    return kind if want_kind else name


def sync():
    shutil.rmtree(TMP, ignore_errors=True)
    subprocess.run(["cp", "-a", SRC, TMP], check=True)


def build(target, own):
    """None if everything builds, else (file, line) of the first error outside `own` (or inside, if own is None)."""
    p = subprocess.Popen(["lake", "build"] + target, cwd=TMP, stdout=subprocess.PIPE, stderr=subprocess.STDOUT, text=True,
                         start_new_session=True)
    res = None
    for l in p.stdout:
        m = re.match(r"error: (Verif/\S+?\.lean):(\d+)", l)
        if m:
            res = (m.group(1), int(m.group(2)))
            os.killpg(p.pid, signal.SIGKILL)
            break
    p.wait()
    return res


def main():
    cands = json.load(open(sys.argv[1]))
    for f, name, cs in cands:
        done = 0
        for path, _, old, new, label in cs:
            if done >= MAXPER:
                break
            sync()
            p = os.path.join(TMP, path)
            s = open(p).read()
            if s.count(old) != 1:
                print(name, label, "NOT APPLICABLE", flush=True)
                continue
            open(p, "w").write(s.replace(old, new))
            r = build([path[:-5].replace("/", ".")], None)
            if r is not None and enclosing(os.path.join(TMP, r[0]), r[1], True) not in ("theorem", "lemma", "example"):
                print(name, label, "INVALID", r, flush=True)
                continue
            done += 1
            if r is None:
                r = build([], path)
            failed = [] if r is None else ["%s: %s" % (r[0], enclosing(os.path.join(TMP, r[0]), r[1]))]
            with open(sys.argv[2], "a") as o:
                o.write(json.dumps({"definition": name, "file": path, "edit": {"old": old, "new": new},
                                    "claim": "automatic edit: " + label, "killed": r is not None, "invalid": False,
                                    "theorems_failed": failed, "first_failure_only": True,
                                    "property_modules_blocked": [], "theorems_tightened": []}, ensure_ascii=False) + "\n")
            print(name, label, "SURVIVED" if r is None else "KILLED", failed, flush=True)


main()
