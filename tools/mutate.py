#!/usr/bin/env python3
"""Test the theorems against wrong programs.

usage: mutate.py [--near] SCRATCH MUTANTS.json RESULTS.jsonl [name ...]

With --near only the files with the theorems of the properties named by the mutant are rebuilt (and
what they need), and only the theorems of these files are looked at.

For every mutant (an edit of a model file) the scratch copy of lean/ is rebuilt.  Declarations whose
proof no longer goes through get their proof replaced by `sorry` (in the scratch copy only) so that
the rest of the development is still checked; the property theorems that depend on such a hole, or
whose statement no longer elaborates, are the ones that failed.
"""
import json
import pathlib
import re
import shutil
import subprocess
import sys
import time

ROOT = pathlib.Path(__file__).resolve().parent.parent
START = re.compile(r"^(@\[[^\]]*\]\s*)?((private|protected|noncomputable|local|scoped)\s+)*"
                   r"(theorem|lemma|example|def|instance|abbrev|structure|inductive)\b\s*([^\s:({\[]*)")
HOLE = " := by sorry\n"


def run(cmd, cwd, timeout=5400):
    try:
        p = subprocess.run(cmd, cwd=cwd, stdout=subprocess.PIPE, stderr=subprocess.STDOUT, text=True,
                           timeout=timeout)
        return p.returncode, p.stdout
    except subprocess.TimeoutExpired:
        return 124, "TIMEOUT"


def block(lines, i):
    """Lines [a, b) of the declaration containing line i."""
    a = i
    while a >= 0 and not START.match(lines[a]):
        a -= 1
    if a < 0:
        return None
    b = a + 1
    while b < len(lines) and (not lines[b].strip() or lines[b][0] in " \t\n"
                              or lines[b].startswith(("termination_by", "decreasing_by"))):
        b += 1
    return (a, b) if i < b else None


def cut(text):
    """End of the statement of a theorem: the first `:=` or final `where` outside brackets."""
    depth = 0
    k = 0
    while k < len(text):
        c = text[k]
        if c in "([{⟨":
            depth += 1
        elif c in ")]}⟩":
            depth -= 1
        elif depth == 0 and text.startswith(":=", k):
            return k
        elif depth == 0 and text.startswith(" where\n", k):
            return k
        elif depth == 0 and text.startswith("\n  | ", k) and "match" not in text[:k]:
            return k
        k += 1
    return None


def near_files(m):
    """Modules with the theorems of the properties of a mutant."""
    pat = re.compile(r"^theorem (%s)_" % "|".join(m["props"]), re.M)
    return [p for p in sorted((ROOT / "lean" / "Verif" / "Props").glob("*.lean")) if pat.search(p.read_text())]


def mutant(scratch, m, near=False):
    src = scratch / "Verif"
    # restore the sources (only those that differ, to keep the build cache)
    for p in (ROOT / "lean" / "Verif").rglob("*.lean"):
        q = src / p.relative_to(ROOT / "lean" / "Verif")
        t = p.read_text()
        if not q.exists() or q.read_text() != t:
            q.parent.mkdir(parents=True, exist_ok=True)
            q.write_text(t)
    main = (ROOT / "lean" / "Verif.lean").read_text()
    if (scratch / "Verif.lean").read_text() != main:
        (scratch / "Verif.lean").write_text(main)
    for e in m["edits"]:
        f = src / e["file"]
        t = f.read_text()
        if t.count(e["old"]) != 1:
            return {"name": m["name"], "error": "edit matches %d times" % t.count(e["old"])}
        f.write_text(t.replace(e["old"], e["new"]))
    files = near_files(m) if near else []
    modules = ["Verif.Props." + p.stem for p in files]
    holes, deleted = [], []
    t0 = time.time()
    for it in range(60):
        rc, out = run(["lake", "build"] + modules, scratch)
        if rc == 0:
            break
        errs = {}
        for f, l in re.findall(r"^error: (Verif/\S+\.lean):(\d+):\d+:", out, re.M):
            errs.setdefault(f, set()).add(int(l) - 1)
        if not errs:
            return {"name": m["name"], "error": out[-1500:], "holes": holes}
        for f, ls in errs.items():
            p = scratch / f
            lines = p.read_text().splitlines(True)
            todo = {}
            for l in ls:
                b = block(lines, l)
                if b is None and f.endswith("Conformance.lean"):
                    # the tests run with #guard fail: leave them out
                    holes.append("%s:%d:guard" % (f, l + 1))
                    lines, todo = ["\n"], {}
                    break
                if b is None:
                    return {"name": m["name"], "error": "%s:%d outside a declaration\n" % (f, l + 1) + out[-1500:]}
                todo[b] = True
            for a, b in sorted(todo, reverse=True):
                g = START.match(lines[a])
                kind, name = g.group(4), g.group(5)
                text = "".join(lines[a:b])
                where = f + ":" + name
                if kind == "example":
                    lines[a:b] = ["\n"]
                    # a doc comment may not be left alone
                    holes.append(f + ":example")
                    j = a - 1
                    while j >= 0 and not lines[j].strip():
                        j -= 1
                    if j >= 0 and lines[j].rstrip().endswith("-/"):
                        s = j
                        while not lines[s].startswith("/-"):
                            s -= 1
                        if lines[s].startswith("/--"):
                            lines[s] = lines[s].replace("/--", "/-", 1)
                    continue
                if kind not in ("theorem", "lemma"):
                    return {"name": m["name"], "error": "%s %s\n" % (kind, where) + out[-1500:], "holes": holes}
                c = cut(text)
                if c is None or where in holes:
                    deleted.append(where)
                    lines[a:b] = ["example : True := trivial\n", "\n"]
                else:
                    holes.append(where)
                    lines[a:b] = [text[:c].rstrip() + HOLE, "\n"]
            p.write_text("".join(lines))
    else:
        return {"name": m["name"], "error": "too many rounds", "holes": holes}
    thms = [t for c in json.loads((ROOT / "MANIFEST.json").read_text())["claims"] for t in c["theorems"]]
    if near:
        here = {n for p in files for n in re.findall(r"^theorem (C\d+_\w+)", p.read_text(), re.M)}
        thms = [t for t in thms if t.split(".")[-1] in here]
    audit = scratch / "MutAudit.lean"
    audit.write_text("".join("import %s\n" % x for x in modules or ["Verif"]) + "".join("#print axioms %s\n" % t for t in thms))
    _, out = run(["lake", "env", "lean", "MutAudit.lean"], scratch)
    good = set()
    for part in re.split(r"(?=^'|^MutAudit)", out, flags=re.M):
        g = re.match(r"'([^']+)' (depends on axioms: \[([^\]]*)\]|does not depend)", part)
        if g and "sorryAx" not in (g.group(3) or ""):
            good.add(g.group(1))
    failed = [t for t in thms if t not in good]
    return {"name": m["name"], "holes": holes, "deleted": deleted, "failed": failed,
            "rounds": it, "seconds": round(time.time() - t0)}


def main():
    near = "--near" in sys.argv
    argv = [a for a in sys.argv[1:] if a != "--near"]
    scratch, mutants, results = map(pathlib.Path, argv[:3])
    only = set(argv[3:])
    if not scratch.exists():
        shutil.copytree(ROOT / "lean", scratch, symlinks=True)
    done = {json.loads(l)["name"] for l in results.read_text().splitlines()} if results.exists() else set()
    for m in json.loads(mutants.read_text()):
        if (only and m["name"] not in only) or m["name"] in done:
            continue
        r = mutant(scratch, m, near)
        with results.open("a") as f:
            f.write(json.dumps(r) + "\n")
        print(m["name"], r.get("error", "")[:300] or "%d failed, %ds" % (len(r["failed"]), r["seconds"]), flush=True)


if __name__ == "__main__":
    main()
