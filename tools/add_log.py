#!/usr/bin/env python3
"""Appends results of mutate.py to seeded/LOG.jsonl: add_log.py out.jsonl [tightened.json]
tightened.json maps the claim of a mutant to the theorems which were tightened because of it."""
import json, os, sys

here = os.path.dirname(os.path.dirname(os.path.abspath(__file__)))
log = os.path.join(here, "seeded", "LOG.jsonl")
tight = json.load(open(sys.argv[2])) if len(sys.argv) > 2 else {}
old = [json.loads(l) for l in open(log)] if os.path.exists(log) else []
seen = {(d["definition"], d["edit"]) for d in old}
with open(log, "a") as f:
    for l in open(sys.argv[1]):
        d = json.loads(l)
        e = {"definition": d["def"], "edit": "%s: `%s` -> `%s`" % (d["file"], d["old"], d["new"]), "claim": d["claim"],
             "theorems_failed": d.get("failed", []), "theorems_tightened": tight.get(d["claim"], [])}
        if d.get("broken", "").startswith("!"):
            continue  # the edit was not well-formed
        if d.get("broken"):
            e["theorems_failed"] = [x.split(" ", 1)[1] for x in d["direct"] if x.startswith("theorem ")]
            e["note"] = "these theorems fail themselves; what depends on them was not built"
        if (e["definition"], e["edit"]) not in seen:
            f.write(json.dumps(e, ensure_ascii=False) + "\n")
