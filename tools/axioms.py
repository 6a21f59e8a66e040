"""Write AXIOMS.md: the axioms that each theorem of MANIFEST.json depends on (`#print axioms`)."""
import json, pathlib, re, subprocess
root = pathlib.Path(__file__).resolve().parent.parent
claims = json.loads((root / "MANIFEST.json").read_text())["claims"]
names = list(dict.fromkeys(t for c in claims for t in c["theorems"]))
src = "import Verif\n" + "".join(f"#print axioms {t}\n" for t in names)
f = pathlib.Path("/tmp/Axioms.lean")
f.write_text(src)
out = subprocess.run(["lake", "env", "lean", str(f)], cwd=root / "lean", capture_output=True, text=True).stdout
rows, seen = [], set()
for t in names:
    m = re.search(r"'" + re.escape(t) + r"' (?:depends on axioms:\s*\[([^\]]*)\]|does not depend on any axioms)", out)
    a = [x.strip() for x in (m.group(1) or "").split(",") if x.strip()]
    seen |= set(a)
    rows.append(f"| `{t.split('.')[-1]}` | {', '.join(a) or 'none'} |")
allowed = {"propext", "Classical.choice", "Quot.sound"}
assert seen <= allowed, seen - allowed
(root / "AXIOMS.md").write_text("# Axioms per theorem\n\nGenerated by `tools/axioms.py`.\n\n| theorem | axioms |\n|---|---|\n" + "\n".join(rows) + "\n")
print(len(rows), sorted(seen))
