#!/usr/bin/env python3
"""Prints the table of section 5 of DESIGN.md from properties.jsonl, MANIFEST.json and tools/how.json."""
import json, os
ROOT = os.path.dirname(os.path.dirname(os.path.abspath(__file__)))
props = [json.loads(l) for l in open(f"{ROOT}/properties.jsonl")]
man = {c["property"]: c for c in json.load(open(f"{ROOT}/MANIFEST.json"))["claims"]}
how = json.load(open(f"{ROOT}/tools/how.json"))
for p in props:
    h = how[p["id"]]
    s = {"proved": "P", "partial": "p"}.get(man[p["id"]]["status"], "-")
    print(f"| {p['id']} {s} | {p['title']} | {h[0]} | {h[1]} |")
