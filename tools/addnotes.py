#!/usr/bin/env python3
"""Usage: addnotes.py < lines 'Cnn|status|note' ; merges them into notes.json."""
import json, os, sys
f = os.path.join(os.path.dirname(os.path.abspath(__file__)), "notes.json")
d = json.load(open(f))
for l in sys.stdin:
    l = l.strip()
    if l:
        i, s, n = l.split("|", 2)
        d[i] = {"status": s, "note": n}
json.dump(dict(sorted(d.items(), key=lambda kv: int(kv[0][1:]))), open(f, "w"), indent=1, ensure_ascii=False)
