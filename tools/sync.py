#!/usr/bin/env python3
"""Regenerates lean/Verif.lean (imports), MANIFEST.json (claims) and, with --axioms, AXIOMS.md.

A property theorem is a theorem of lean/Verif/Props/*.lean whose name starts with the property id (C01_...).
Statuses and notes are in tools/status.json."""
import json, pathlib, re, subprocess, sys, tempfile, collections

root = pathlib.Path(__file__).resolve().parent.parent
lean = root / "lean"
mods = sorted(p for p in (lean / "Verif").rglob("*.lean"))
names = [".".join(p.relative_to(lean).with_suffix("").parts) for p in mods]
(lean / "Verif.lean").write_text("".join(f"import {n}\n" for n in names))

props = [json.loads(l) for l in (root / "properties.jsonl").read_text().splitlines() if l.strip()]
status = json.loads((root / "tools" / "status.json").read_text())
thms = collections.OrderedDict()
for p in mods:
    if "Props" not in p.parts:
        continue
    text = p.read_text()
    text = re.sub(r"/-.*?-/", "", text, flags=re.S)
    ns = []
    for line in text.splitlines():
        m = re.match(r"namespace (\S+)", line)
        if m:
            ns.append(m.group(1)); continue
        m = re.match(r"end (\S+)", line)
        if m and ns and ns[-1] == m.group(1):
            ns.pop(); continue
        m = re.match(r"(?:private )?theorem (C\d\d+)(_\S+|\b)", line)
        if m:
            thms.setdefault(m.group(1), []).append(".".join(ns + [m.group(1) + m.group(2)]))
claims, missing = [], []
for pr in props:
    i = pr["id"]
    st = status.get(i)
    if i not in thms or st is None:
        missing.append(i); continue
    claims.append({"property": i, "status": st["status"], "theorems": thms[i], "note": st.get("note", "")})
(root / "MANIFEST.json").write_text(json.dumps({"claims": claims}, indent=1, ensure_ascii=False) + "\n")
print(f"{len(names)} modules, {sum(map(len, thms.values()))} property theorems, {len(claims)} claims; missing: {' '.join(missing)}")
extra = set(thms) - {p["id"] for p in props}
if extra:
    print("theorems without property:", sorted(extra))

if "--axioms" in sys.argv:
    src = "import Verif\n" + "".join(f"#print axioms {t}\n" for ts in thms.values() for t in ts)
    with tempfile.NamedTemporaryFile("w", suffix=".lean", delete=False) as f:
        f.write(src)
    out = subprocess.run(["lake", "env", "lean", f.name], cwd=lean, capture_output=True, text=True)
    if out.returncode != 0:
        print(out.stdout, out.stderr); sys.exit(1)
    text = re.sub(r"\n\s+", " ", out.stdout)
    allowed = {"propext", "Classical.choice", "Quot.sound"}
    groups = collections.defaultdict(list)
    for line in text.splitlines():
        m = re.match(r"'(\S+)' depends on axioms: \[(.*)\]", line)
        if m:
            ax = [a.strip() for a in m.group(2).split(",")]
            if not set(ax) <= allowed:
                print("BAD AXIOMS", line); sys.exit(1)
            groups[", ".join(ax)].append(m.group(1)); continue
        m = re.match(r"'(\S+)' does not depend on any axioms", line)
        if m:
            groups["none"].append(m.group(1)); continue
        print("unexpected:", line)
    with open(root / "AXIOMS.md", "w") as f:
        f.write("# Axioms used by each property theorem\n\nGenerated by `tools/sync.py --axioms` from `#print axioms`.\n")
        for g in sorted(groups):
            f.write(f"\n## {g}\n\n" + "".join(f"- {t}\n" for t in groups[g]))
    print("axioms ok:", {g: len(v) for g, v in groups.items()})
