#!/usr/bin/env python3
"""Write AXIOMS.md: the axioms each property theorem depends on, as reported by Lean."""
import json, os, re, subprocess, tempfile

ROOT = os.path.dirname(os.path.dirname(os.path.abspath(__file__)))
claims = json.load(open(os.path.join(ROOT, "MANIFEST.json")))["claims"]
names = [t for c in claims for t in c["theorems"]]
src = "import Verif\n" + "".join(f"#print axioms {n}\n" for n in names)
with tempfile.NamedTemporaryFile("w", suffix=".lean", delete=False) as f:
    f.write(src)
out = subprocess.run(["lake", "env", "lean", f.name], cwd=os.path.join(ROOT, "lean"),
                     capture_output=True, text=True).stdout
os.unlink(f.name)
out = re.sub(r"\s+", " ", out)
ax = {}
for m in re.finditer(r"'(\S+)' (does not depend on any axioms|depends on axioms: \[([^\]]*)\])", out):
    ax[m.group(1)] = m.group(3) or "none"
groups = {}
for n in names:
    groups.setdefault(ax[n], []).append(n)
with open(os.path.join(ROOT, "AXIOMS.md"), "w") as f:
    f.write("# Axioms of the property theorems\n\nGenerated by `tools/axioms.py` from `#print axioms`.\n")
    for a in sorted(groups):
        f.write(f"\n## {a} ({len(groups[a])} theorems)\n\n")
        for n in groups[a]:
            f.write(f"- `{n}`\n")
print({a: len(v) for a, v in groups.items()})
