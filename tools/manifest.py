#!/usr/bin/env python3
"""Regenerates Verif.lean's imports and MANIFEST.json from the theorem names in lean/Verif."""
import json, re, pathlib
root = pathlib.Path(__file__).resolve().parent.parent
notes = json.load(open(root / "tools" / "notes.json"))
props = [json.loads(l)["id"] for l in open(root / "properties.jsonl") if l.strip()]
thms, mods = {}, []
for f in sorted((root / "lean" / "Verif").rglob("*.lean")):
    mods.append(".".join(f.relative_to(root / "lean").with_suffix("").parts))
    ns = []
    for line in open(f):
        m = re.match(r"namespace (\S+)", line)
        if m: ns.append(m.group(1)); continue
        m = re.match(r"end (\S+)", line)
        if m and ns and ns[-1] == m.group(1): ns.pop(); continue
        m = re.match(r"(?:protected )?theorem (C(\d\d+)_\w+)", line)
        if m: thms.setdefault("C" + m.group(2), []).append(".".join(ns + [m.group(1)]))
(root / "lean" / "Verif.lean").write_text("".join(f"import {m}\n" for m in mods))
claims = []
for p in props:
    n = notes.get(p, {})
    if p in thms or n:
        t = thms.get(p, [])
        st = n.get("status") or ("partial" if any(x.endswith("_partial") for x in t) else "proved")
        claims.append({"property": p, "status": st, "theorems": t, "note": n.get("note", "")})
(root / "MANIFEST.json").write_text(json.dumps({"claims": claims}, indent=1, ensure_ascii=False) + "\n")
miss = [p for p in props if p not in thms and p not in notes]
print("claims:", len(claims), "theorems:", sum(map(len, thms.values())), "missing:", miss, "unknown:", [k for k in thms if k not in props])
