#!/usr/bin/env python3
"""Ask Lean for the axioms of every theorem in MANIFEST.json (after `lake build`) and write them into DESIGN.md,
between the two markers."""
import json, os, re, subprocess, tempfile, glob
root = os.path.dirname(os.path.dirname(os.path.abspath(__file__)))
names = [t for c in json.load(open(f"{root}/MANIFEST.json"))["claims"] for t in c["theorems"]]
mods = sorted("Verif.Props." + os.path.basename(f)[:-5] for f in glob.glob(f"{root}/lean/Verif/Props/*.lean"))
with tempfile.NamedTemporaryFile("w", suffix=".lean", delete=False) as f:
    f.write("".join(f"import {m}\n" for m in mods) + "".join(f"#print axioms {n}\n" for n in names))
out = subprocess.run(["lake", "env", "lean", f.name], cwd=f"{root}/lean", capture_output=True, text=True).stdout
os.unlink(f.name)
groups = {}
flat = re.sub(r"\n\s+", " ", out)
for n, a in re.findall(r"'(\S+)' (?:depends on axioms: \[(.*?)\]|does not depend on any axioms)", flat):
    groups.setdefault(", ".join(sorted(x.strip() for x in a.split(","))) or "none", []).append(n.replace("Verif.Props.", ""))
assert sum(map(len, groups.values())) == len(names), (sum(map(len, groups.values())), len(names), out[:500])
text = ""
for g in sorted(groups, key=lambda g: len(groups[g])):
    text += f"* {g} ({len(groups[g])}): " + ", ".join(f"`{n}`" for n in sorted(groups[g])) + "\n"
s = open(f"{root}/DESIGN.md").read()
a, b = "<!-- axioms -->\n", "<!-- end of axioms -->\n"
s = s[:s.index(a) + len(a)] + text + s[s.index(b):]
open(f"{root}/DESIGN.md", "w").write(s)
print({g: len(v) for g, v in groups.items()})
