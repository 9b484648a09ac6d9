#!/usr/bin/env python3
"""Update or append one property: setprop.py ID key=value ... (values are taken literally; anchors is split on |)."""
import json, os, sys
P = os.path.join(os.path.dirname(os.path.abspath(__file__)), "..", "properties.jsonl")
rows = [json.loads(l) for l in open(P) if l.strip()]
i = sys.argv[1]
row = next((r for r in rows if r["id"] == i), None)
if row is None:
    row = {"id": i}
    rows.append(row)
for a in sys.argv[2:]:
    k, v = a.split("=", 1)
    row[k] = v.split("|") if k == "anchors" else v
with open(P, "w") as f:
    for r in rows:
        f.write(json.dumps(r) + "\n")
