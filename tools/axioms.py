"""Writes AXIOMS.md: the axioms every theorem of MANIFEST.json depends on. Needs a finished build."""
import json, os, re, subprocess, tempfile
here = os.path.dirname(os.path.abspath(__file__))
top = os.path.join(here, "..")
claims = json.load(open(os.path.join(top, "MANIFEST.json")))["claims"]
src = "import Verif\n" + "".join(f"#print axioms {t}\n" for c in claims for t in c["theorems"])
with tempfile.NamedTemporaryFile("w", suffix=".lean", delete=False) as f:
    f.write(src)
out = subprocess.run(["lake", "env", "lean", f.name], cwd=os.path.join(top, "lean"), capture_output=True, text=True).stdout
os.unlink(f.name)
ax = {}
for m in re.finditer(r"'(\S+)' (?:depends on axioms: \[([^\]]*)\]|does not depend on any axioms)", out):
    ax[m[1]] = ", ".join(x.strip() for x in (m[2] or "").split(",") if x.strip()) or "none"
with open(os.path.join(top, "AXIOMS.md"), "w") as f:
    f.write("# Axioms each theorem depends on\n\nWritten by `tools/axioms.py` (`#print axioms`).\n\n| Property | Theorem | Axioms |\n|---|---|---|\n")
    for c in claims:
        for t in c["theorems"]:
            f.write(f"| {c['property']} | `{t}` | {ax[t]} |\n")
print(len(ax), sorted(set(ax.values())))
