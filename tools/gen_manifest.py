#!/usr/bin/env python3
"""Regenerate MANIFEST.json, lean/Verif.lean and lean/Verif/Axioms.lean.

Property theorems are the `theorem Cnn_...` declarations of lean/Verif/Props/*.lean.
"""
import json, re, pathlib, runpy

root = pathlib.Path(__file__).resolve().parent.parent
props = [json.loads(l) for l in (root / "properties.jsonl").read_text().splitlines() if l.strip()]
notes = runpy.run_path(str(root / "tools" / "notes.py"))["NOTES"]

thms = {}
for f in sorted((root / "lean/Verif/Props").glob("*.lean")):
    ns = "MatrixLibs"
    for line in f.read_text().splitlines():
        m = re.match(r"\s*(?:private )?theorem (C\d\d+)_(\S+)", line)
        if m:
            thms.setdefault(m.group(1), []).append(f"{ns}.{m.group(1)}_{m.group(2)}")

claims = []
for p in props:
    i = p["id"]
    ts = thms.get(i, [])
    status, note = notes.get(i, ("proved", ""))
    if not ts and status != "not_applicable":
        continue
    claims.append({"property": i, "status": status, "theorems": ts, "note": note})
(root / "MANIFEST.json").write_text(json.dumps({"claims": claims}, indent=1, ensure_ascii=False) + "\n")

mods = sorted(str(f.relative_to(root / "lean"))[:-5].replace("/", ".")
              for f in (root / "lean/Verif").rglob("*.lean"))
if "Verif.Axioms" not in mods:
    mods.append("Verif.Axioms")
(root / "lean/Verif.lean").write_text("".join(f"import {m}\n" for m in sorted(mods)))

pm = sorted(m for m in mods if m.startswith("Verif.Props."))
out = ["import Lean.Elab.Command", "import Lean.Util.CollectAxioms"]
out += [f"import {m}" for m in pm]
out += ["", "/-!", "# Axioms of the property theorems", "",
        "The build fails if a property theorem depends on anything but Lean's three standard axioms.",
        "Generated by `tools/gen_manifest.py`.", "-/", "",
        "open Lean Elab Command in",
        "/-- Check that a theorem depends on the standard axioms only. -/",
        "elab \"#standard_axioms \" ids:ident* : command => do",
        "  for id in ids do",
        "    let n ← liftCoreM <| realizeGlobalConstNoOverload id",
        "    for a in ← collectAxioms n do",
        "      unless a == ``propext || a == ``Classical.choice || a == ``Quot.sound do",
        "        throwErrorAt id \"{n} depends on {a}\"", ""]
for p in props:
    for t in thms.get(p["id"], []):
        out.append(f"#standard_axioms {t}")
(root / "lean/Verif/Axioms.lean").write_text("\n".join(out) + "\n")
print(len(claims), "claims", sum(len(c["theorems"]) for c in claims), "theorems; missing:",
      [p["id"] for p in props if p["id"] not in thms])
