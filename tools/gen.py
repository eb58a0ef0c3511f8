#!/usr/bin/env python3
"""Regenerate lean/Verif.lean and MANIFEST.json.
Theorems are assigned to properties by their name prefix (C01_...); the status and
note of every property come from tools/status.json."""
import json, re, pathlib
root = pathlib.Path(__file__).resolve().parent.parent
lean = root / "lean"
mods = sorted(str(p.relative_to(lean))[:-5].replace("/", ".") for p in (lean / "Verif").rglob("*.lean"))
(lean / "Verif.lean").write_text("".join(f"import {m}\n" for m in mods))
thms = {}
for p in sorted((lean / "Verif" / "Props").rglob("*.lean")):
    for m in re.finditer(r"^theorem\s+(C\d\d+)_(\w+)", p.read_text(), re.M):
        name = f"{m.group(1)}_{m.group(2)}"
        for pid in sorted(set(re.findall(r"C\d\d+", name))):
            thms.setdefault(pid, []).append("Attimo." + name)
status = json.loads((root / "tools" / "status.json").read_text())
claims = []
for l in (root / "properties.jsonl").read_text().splitlines():
    pid = json.loads(l)["id"]
    ts = thms.get(pid, [])
    st, note = status.get(pid, ["partial", "not modelled yet"])
    if not ts and st != "not_applicable":
        st = "partial"
    claims.append({"property": pid, "status": st, "theorems": ts, "note": note})
(root / "MANIFEST.json").write_text(json.dumps({"claims": claims}, indent=1) + "\n")
print({s: sum(c["status"] == s for c in claims) for s in ("proved", "partial", "not_applicable")},
      "without theorem:", [c["property"] for c in claims if not c["theorems"]])
