"""Mutation test: edit one definition of the model, check every theorem of the manifest again.

The modules that depend on the edited one are compiled again in a scratch directory outside /verif. A module with errors
is written all the same (a failed proof becomes `sorry`), so that an error does not hide what depends on it: afterwards
`#print axioms` of every theorem that depends on a failed proof shows `sorryAx`.

usage: mutate.py mutations.json [first [last]]     (appends to seeded/LOG.jsonl)
       environment: MUTATE_DIR, the scratch directory; MUTATE_JOBS, the number of processes;
       MUTATE_CLAIMS=1, to check only the claims that the edit should break; waits while /tmp/hold exists
"""
import concurrent.futures, json, os, pathlib, re, shutil, subprocess, sys, time

root = pathlib.Path(__file__).resolve().parent.parent
lean = root / "lean"
scratch = pathlib.Path(os.environ.get("MUTATE_DIR", "/tmp/scratch"))
jobs = int(os.environ.get("MUTATE_JOBS", "3"))

COMPILE = r"""
import Lean
open Lean Elab

unsafe def main (args : List String) : IO UInt32 := do
  let [file, mod, out] := args | return 2
  initSearchPath (← findSysroot)
  enableInitializersExecution
  let input ← IO.FS.readFile file
  let ictx := Parser.mkInputContext input file
  let (header, pstate, msgs) ← Parser.parseHeader ictx
  let opts := ({} : Options).set `Elab.async false |>.set `maxErrors 100000
  let (env, msgs) ← processHeader header opts msgs ictx (mainModule := mod.toName)
  let s ← IO.processCommands ictx pstate (Command.mkState env msgs opts)
  for m in s.commandState.messages.toList do
    if m.severity == .error then IO.println s!"ERROR {m.pos.line}"
  writeModule s.commandState.env out
  return 0
"""


def path(m): return lean / (m.replace(".", "/") + ".lean")


def deps(m): return re.findall(r"^import (Verif\S*)", path(m).read_text(), re.M)


_closure = {}


def closure(m):
    if m not in _closure: _closure[m] = {m}.union(*[closure(d) for d in deps(m)])
    return _closure[m]


claims = json.loads((root / "MANIFEST.json").read_text())["claims"]
manifest = [t for c in claims for t in c["theorems"]]
modules = sorted("Verif." + ".".join(f.relative_to(lean / "Verif").with_suffix("").parts)
                 for f in (lean / "Verif").rglob("*.lean"))
modules = [m for m in modules if not m.startswith("Verif.Check.")]


def olean(m): return scratch / "lib" / (m.replace(".", "/") + ".olean")


def environment():
    e = dict(os.environ)
    p = subprocess.run(["lake", "env", "printenv", "LEAN_PATH"], cwd=lean, capture_output=True, text=True).stdout.strip()
    own = str(lean / ".lake/build/lib/lean")
    e["LEAN_PATH"] = ":".join([str(scratch / "lib")] + [x for x in p.split(":") if os.path.realpath(x) != os.path.realpath(own)])
    return e


def claimed(breaks):
    """The modules with the theorems of the claims that are named."""
    names = {t.split(".")[-1] for c in claims if c["property"] in re.findall(r"C\d+", breaks) for t in c["theorems"]}
    return [m for m in modules if names & set(re.findall(r"^theorem (\S+)", path(m).read_text(), re.M))]


def check(mod, old, new, breaks=""):
    shutil.rmtree(scratch / "lib", ignore_errors=True)
    scratch.mkdir(exist_ok=True)
    (scratch / "Compile.lean").write_text(COMPILE)
    affected = [m for m in modules if mod in closure(m)]
    if os.environ.get("MUTATE_CLAIMS") and claimed(breaks):
        wanted = set().union(*[closure(m) for m in claimed(breaks)])
        affected = [m for m in affected if m in wanted]
    for m in modules:
        olean(m).parent.mkdir(parents=True, exist_ok=True)
        if m not in affected:
            built = lean / ".lake/build/lib/lean" / (m.replace(".", "/") + ".olean")
            if not built.exists(): raise SystemExit(f"{m} is not built")
            os.symlink(built, olean(m))
    text = path(mod).read_text()
    if text.count(old) != 1: raise SystemExit(f"{mod}: pattern occurs {text.count(old)} times: {old}")
    edited = scratch / "Edited.lean"
    edited.write_text(text.replace(old, new))
    env = environment()
    errors, first, examples = {}, [], 0

    def compile_(m):
        f = edited if m == mod else path(m)
        try:
            r = subprocess.run(["lean", "--run", str(scratch / "Compile.lean"), str(f), m, str(olean(m))], cwd=scratch,
                               env=env, capture_output=True, text=True, timeout=1500)
        except subprocess.TimeoutExpired: return None
        if r.returncode: return None
        return [int(x) for x in re.findall(r"^ERROR (\d+)", r.stdout, re.M)]

    todo, done = set(affected), {m for m in modules if m not in affected}
    with concurrent.futures.ThreadPoolExecutor(jobs) as pool:
        running = {}
        while todo or running:
            for m in sorted(todo, key=lambda m: len(closure(m))):
                if len(running) < jobs and all(d in done for d in deps(m)):
                    running[pool.submit(compile_, m)] = m
                    todo.discard(m)
            if not running: break
            for f in concurrent.futures.wait(running, return_when=concurrent.futures.FIRST_COMPLETED)[0]:
                m = running.pop(f)
                errors[m] = f.result()
                if errors[m] is not None: done.add(m)
    lost = [m for m in affected if m not in done]
    for m in sorted(affected, key=lambda m: len(closure(m))):
        lines = (edited if m == mod else path(m)).read_text().split("\n")
        for i in errors.get(m) or []:
            i -= 1
            while i >= 0 and not re.match(r"(private |noncomputable |@\[.*\] )*(theorem|def|example|instance|lemma|structure)\b", lines[i]): i -= 1
            n = lines[i].split() if i >= 0 else ["", "header"]
            if n[1] == "header" or (m == mod and "def" in n[:3]): raise SystemExit(f"{m}: the edit does not compile: {old}")
            name = "example" if n[0] == "example" else n[1].rstrip(":")
            if name == "example": examples += 1
            if name not in first: first.append(name)
    have = set()
    for m in affected:
        have |= set(re.findall(r"^theorem (\S+)", path(m).read_text(), re.M))
    thms = sorted({t for t in manifest if t.split(".")[-1] in have})
    q = scratch / "Axioms.lean"
    q.write_text("".join(f"import {m}\n" for m in affected if m in done) + "".join(f"#print axioms {t}\n" for t in thms))
    out = subprocess.run(["lean", str(q)], cwd=scratch, env=env, capture_output=True, text=True).stdout
    failed = []
    for t in thms:
        m = re.search(r"'" + re.escape(t) + r"' (depends on axioms: \[([^\]]*)\]|does not depend)", out)
        if not m or "sorryAx" in m.group(0): failed.append(t.split(".")[-1])
    return failed, first, examples, thms, lost


if __name__ == "__main__":
    muts = json.loads(pathlib.Path(sys.argv[1]).read_text())
    a = int(sys.argv[2]) if len(sys.argv) > 2 else 0
    b = int(sys.argv[3]) if len(sys.argv) > 3 else len(muts)
    for m in muts[a:b]:
        while os.path.exists("/tmp/hold"): time.sleep(5)
        failed, first, ex, thms, lost = check(m["module"], m["old"], m["new"], m["breaks"])
        rec = {"definition": m["definition"], "edit": m["edit"], "breaks": m["breaks"],
               "theorems_failed": failed, "lemmas_failed_first": first[:6],
               "examples_failed": ex, "theorems_checked": len(thms),
               "tightened": m.get("tightened", [])}
        if m.get("note"): rec["note"] = m["note"]
        if lost: rec["not_compiled"] = lost
        with open(root / "seeded/LOG.jsonl", "a") as f: f.write(json.dumps(rec) + "\n")
        print(m["definition"], "|", m["edit"], "->", len(failed), "failed", failed[:12] if failed else "*** SURVIVED ***", lost or "", flush=True)
