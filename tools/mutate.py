#!/usr/bin/env python3
"""Mutation testing. Usage: mutate.py MUTANTS.json

Each mutant is {"def", "file", "old", "new", "edit", "claim"}. The tree is copied to a scratch
directory outside the repository, the edit is applied, and everything is rebuilt. Proofs that no
longer check are replaced by `sorry` there, until the scratch copy builds; a property theorem has
failed if it then depends on `sorryAx`. One line per mutant is appended to seeded/LOG.jsonl.
"""
import json, os, re, subprocess, sys, shutil

VERIF = os.path.dirname(os.path.dirname(os.path.abspath(__file__)))
SCRATCH = os.environ.get("MUT_SCRATCH", "/tmp/mut/lean")
SNAPSHOT = SCRATCH + ".src"
DECL = re.compile(r"^(?:private |protected |noncomputable |@\[[^\]]*\] *)*"
                  r"(theorem|lemma|def|abbrev|instance|structure|inductive|example|end|namespace|section|variable|open|set_option)\b\s*([^\s({\[:]*)?")


def run(cmd):
    p = subprocess.run(cmd, shell=True, cwd=SCRATCH, capture_output=True, text=True)
    return p.stdout + p.stderr


def decls(lines):
    """Start lines (0-based) of top level commands, doc comments included in the previous gap."""
    out = []
    for i, l in enumerate(lines):
        m = DECL.match(l)
        if m:
            out.append((i, m.group(1), m.group(2) or ""))
    return out


def split_statement(text):
    """Index of the `:=` that ends the statement of a theorem."""
    text = re.sub(r"'[^'\\]'", "'x'", text)
    text = re.sub(r'"[^"\n]*"', lambda m: '"' + "x" * (len(m.group()) - 2) + '"', text)
    depth = 0
    i = 0
    while i < len(text):
        c = text[i]
        if c in "([{⟨":
            depth += 1
        elif c in ")]}⟩":
            depth -= 1
        elif text.startswith(":=", i) and depth == 0:
            line = text[text.rfind("\n", 0, i) + 1:i]
            if not re.search(r"\b(let|have)\b[^;]*$", line):
                return i
        elif depth == 0 and text.startswith("\n  | ", i):
            return i + 1
        i += 1
    return -1


def sorrify(path, errlines):
    src = open(path).read()
    lines = src.split("\n")
    ds = decls(lines)
    hit = []
    for ln in errlines:
        cand = [k for k, d in enumerate(ds) if d[0] <= ln - 1]
        if not cand:
            return None
        k = cand[-1]
        # an error reported at the doc comment of the next declaration
        if lines[ln - 1].startswith("/--") and k + 1 < len(ds):
            k += 1
        hit.append(k)
    names = []
    for k in sorted(set(hit), reverse=True):
        start, kind, name = ds[k]
        end = ds[k + 1][0] if k + 1 < len(ds) else len(lines)
        # keep trailing doc comments of the next declaration
        j = end
        while j > start + 1 and not lines[j - 1].strip() == "":
            j -= 1
        # step back over doc comment blocks separated by blank lines
        body = lines[start:j]
        if kind == "example":
            lines[start:j] = ["example : True := trivial", ""]
            names.append("example@%d" % (start + 1))
            continue
        if kind in ("theorem", "lemma"):
            text = "\n".join(body)
            p = split_statement(text)
            if p < 0:
                return None
            if text[p:].strip().startswith(":= sorry"):
                return None
            # everything after the statement up to the next doc comment
            rest = text[p:]
            m = re.search(r"\n\n(/--|/-!)", rest)
            tail = rest[m.start():] if m else "\n"
            lines[start:j] = (text[:p] + ":= sorry" + tail).split("\n")
            names.append(name)
            continue
        return None
    open(path, "w").write("\n".join(lines))
    return names


def one(m):
    shutil.rmtree(SCRATCH, ignore_errors=True)
    os.makedirs(os.path.dirname(SCRATCH), exist_ok=True)
    subprocess.run(["cp", "-a", SNAPSHOT, SCRATCH], check=True)
    path = os.path.join(SCRATCH, m["file"])
    src = open(path).read()
    if src.count(m["old"]) != 1:
        return {"error": "pattern occurs %d times" % src.count(m["old"])}
    open(path, "w").write(src.replace(m["old"], m["new"]))
    broken = []
    for _ in range(30):
        out = run("lake build")
        errs = {}
        for f, ln in re.findall(r"error: (Verif[^:\s]*\.lean):(\d+):", out):
            errs.setdefault(f, set()).add(int(ln))
        if not errs:
            if "error" in out and "Build completed successfully" not in out:
                return {"error": out[-600:]}
            break
        for f, lns in errs.items():
            r = sorrify(os.path.join(SCRATCH, f), sorted(lns))
            if r is None:
                return {"error": "cannot patch %s %s" % (f, sorted(lns))}
            broken += r
    man = json.load(open(os.path.join(VERIF, "MANIFEST.json")))
    ths = [t for c in man["claims"] for t in c["theorems"]]
    with open(os.path.join(SCRATCH, "Check.lean"), "w") as f:
        f.write("import Verif\n" + "".join("#print axioms %s\n" % t for t in ths))
    out = run("lake env lean Check.lean")
    failed = []
    for t in ths:
        mm = re.search(r"'%s' depends on axioms: \[([^\]]*)\]" % re.escape(t), out)
        if mm and "sorryAx" in mm.group(1):
            failed.append(t)
    return {"broken": broken, "failed": failed}


def main():
    ms = json.load(open(sys.argv[1]))
    shutil.rmtree(SNAPSHOT, ignore_errors=True)
    os.makedirs(os.path.dirname(SNAPSHOT), exist_ok=True)
    subprocess.run(["cp", "-a", VERIF + "/lean", SNAPSHOT], check=True)
    for m in ms:
        r = one(m)
        if "error" in r:
            print(m["def"], "|", m["edit"], "| ERROR", r["error"], flush=True)
            continue
        rec = {"definition": m["def"], "edit": m["edit"], "claim": m["claim"],
               "failed": r["failed"], "broken_lemmas": r["broken"],
               "tightened": m.get("tightened", [])}
        print(m["def"], "|", m["edit"], "| failed:", " ".join(x.split(".")[-1] for x in r["failed"]), flush=True)
        with open(os.path.join(VERIF, "seeded", "LOG.jsonl"), "a") as f:
            f.write(json.dumps(rec, ensure_ascii=False) + "\n")


main()
