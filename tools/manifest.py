#!/usr/bin/env python3
"""Regenerate MANIFEST.json from the theorem names in lean/Verif/Props and the notes below."""
import glob, json, os, re

here = os.path.dirname(os.path.dirname(os.path.abspath(__file__)))
ids = [json.loads(l)["id"] for l in open(os.path.join(here, "properties.jsonl"))]

# property -> (status, note)
NOTES = {
    "C01": ("proved", "For every accepted parameter set with a positive discriminator (see C06)."),
    "C02": ("proved", ""),
    "C03": ("proved", ""),
    "C04": ("proved", ""),
    "C05": ("proved", ""),
    "C06": ("partial", "Refuted for average sizes 1 (division by zero) and >= 9324557 (float conversion); proved for positive discriminators. C95_defined says exactly for which parameters scans are defined, with the formula in floating point arithmetic."),
    "C07": ("proved", ""),
    "C08": ("proved", ""),
    "C09": ("partial", "Refuted: entries of 4 GiB or more, including those with a decreasing end offset, are skipped silently (caibx.c:227). Proved for ascending tables."),
    "C10": ("proved", "Reads outside the filled part of a buffer are undefined behaviour in the model."),
    "C53": ("proved", ""),
}
exec(open(os.path.join(here, "tools", "notes.py")).read()) if os.path.exists(os.path.join(here, "tools", "notes.py")) else None

thms = {}
for p in sorted(glob.glob(os.path.join(here, "lean", "Verif", "Props", "*.lean"))):
    for m in re.finditer(r"^theorem (C\d\d+)_(\w+)", open(p).read(), re.M):
        thms.setdefault(m.group(1), []).append("Csn.Props.%s_%s" % m.groups())

claims = []
for i in ids:
    if i in NOTES:
        st, note = NOTES[i]
        claims.append({"property": i, "status": st, "theorems": thms.get(i, []), "note": note})
        if st != "not_applicable" and not thms.get(i):
            print("no theorems for", i)
for i in thms:
    if i not in NOTES:
        print("no note for", i)
json.dump({"claims": claims}, open(os.path.join(here, "MANIFEST.json"), "w"), indent=1, ensure_ascii=False)
print(len(claims), "claims")
