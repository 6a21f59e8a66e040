"""Small edits of every line of the model, made mechanically: which of them does no proof notice?

A scratch copy of /verif/lean (with its build) is edited at one place, and built until the first error in a proof. An
edit that builds is a survivor: either it does not change the meaning, or the theorems are too weak. An error in an
`example` is not enough: an edit that only examples notice is listed too.

usage: automutate.py scratch-dir out.jsonl [module ...]     (environment: PER_LINE, at most so many edits of a line)
"""
import hashlib, json, os, pathlib, re, shutil, signal, subprocess, sys, time

root = pathlib.Path(__file__).resolve().parent.parent
scratch = pathlib.Path(sys.argv[1])
out = pathlib.Path(sys.argv[2])
only = sys.argv[3:]

SWAPS = [
    (r" \+ ", [" - "]), (r" - ", [" + "]), (r" \* ", [" + "]), (r" / ", [" * "]), (r" % ", [" / "]),
    (r" < ", [" ≤ ", " > "]), (r" ≤ ", [" < "]), (r" = ", [" ≠ "]), (r" ≠ ", [" = "]),
    (r" && ", [" || "]), (r" \|\| ", [" && "]), (r" ∧ ", [" ∨ "]), (r" ∨ ", [" ∧ "]),
    (r"\btrue\b", ["false"]), (r"\bfalse\b", ["true"]),
    (r"\b0\b", ["1"]), (r"\b1\b", ["0", "2"]), (r"\b2\b", ["1", "3"]), (r"\b3\b", ["2"]),
    (r"\.1\b", [".2"]), (r"\.2\b", [".1"]), (r"\bif ", ["if ¬ "]), (r"\bmin\b", ["max"]), (r"\bmax\b", ["min"]),
    (r"\bthrows\b", ["ub"]), (r"\bub\b", ["throws"]),
]


def code_lines(text):
    """Line numbers inside definitions, without comments and headers."""
    depth, res, indef = 0, [], False
    for n, line in enumerate(text.split("\n")):
        start = depth
        depth += line.count("/-") - line.count("-/")
        if start > 0 or depth > 0 or line.strip().startswith("--") or "/-" in line: continue
        if re.match(r"(noncomputable |private )?(def|instance|structure|inductive|abbrev)\b", line): indef = True; header = True
        elif line and not line.startswith(" "): indef = False
        if indef and not line.startswith("theorem"): res.append(n)
    return res


def mutants(text):
    lines = text.split("\n")
    for n in code_lines(text):
        line = lines[n]
        code = line.split(" -- ")[0]
        start = code.index(":=") if re.match(r"(noncomputable |private )?(def|instance|abbrev)\b", code) and ":=" in code else 0
        if re.match(r"(noncomputable |private )?(def|instance|structure|inductive|abbrev)\b", code) and ":=" not in code: continue
        for pat, news in SWAPS:
            for m in re.finditer(pat, code):
                if m.start() < start: continue
                for new in news:
                    yield n, code[:m.start()] + new + code[m.end():] + line[len(code):]
        if code.strip().startswith("gassert"):
            yield n, None


def in_example(file, line):
    for l in reversed((scratch / file).read_text().split("\n")[:line]):
        m = re.match(r"(?:noncomputable |private |@\[\w+\] )*(theorem|lemma|def|abbrev|instance|structure|example)\b", l)
        if m: return m.group(1) == "example"
    return False


def run():
    p = subprocess.Popen(["lake", "build"], cwd=scratch, stdout=subprocess.PIPE, stderr=subprocess.STDOUT, text=True,
                         start_new_session=True)
    failed = example = None
    for l in p.stdout:
        m = re.match(r"error: (Verif/\S+?):(\d+):", l)
        if m:
            where = m.group(1) + ":" + m.group(2)
            if in_example(m.group(1), int(m.group(2))):
                example = where
                continue
            failed = where
            os.killpg(p.pid, signal.SIGKILL)
            break
    p.wait()
    if failed is None and example: return "example " + example
    if failed is None and p.returncode != 0: return "?"
    return failed


if not scratch.exists():
    shutil.copytree(root / "lean", scratch, symlinks=True)
done = set()
if out.exists():
    for l in out.read_text().split("\n"):
        if l: r = json.loads(l); done.add((r["file"], r["line"], r["new"]))
for f in sorted((scratch / "Verif/Model").glob("*.lean")):
    if only and f.stem not in only: continue
    text = f.read_text()
    lines = text.split("\n")
    edits = {}
    for n, new in mutants(text): edits.setdefault(n, []).append(new)
    for es in edits.values():
        es.sort(key=lambda e: hashlib.md5(str(e).encode()).hexdigest())
        del es[int(os.environ.get("PER_LINE", "1000")):]
    for n, new in ((n, new) for n, es in edits.items() for new in es):
        if (f.name, n + 1, new) in done: continue
        while os.path.exists("/tmp/hold"): time.sleep(5)
        l2 = list(lines)
        if new is None: del l2[n]
        else: l2[n] = new
        f.write_text("\n".join(l2))
        failed = run()
        with open(out, "a") as g:
            g.write(json.dumps({"file": f.name, "line": n + 1, "old": lines[n], "new": new, "failed": failed}, ensure_ascii=False) + "\n")
        if failed is None or failed[0] in "?e": print(f.name, n + 1, "|", lines[n].strip(), "|", new and new.strip(), "|", failed or "SURVIVED", flush=True)
    f.write_text(text)
