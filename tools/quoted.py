#!/usr/bin/env python3
"""Checks that the Go text quoted in lean/Verif/Src/*Text.lean is that of the repository, line by line.

usage: tools/quoted.py [/repo]
"""
import glob
import os
import re
import sys

repo = sys.argv[1] if len(sys.argv) > 1 else "/repo"
src = os.path.join(os.path.dirname(__file__), "..", "lean", "Verif", "Src")
bad = count = 0
for path in sorted(glob.glob(os.path.join(src, "*Text.lean"))):
    text = open(path).read()
    for m in re.finditer(r"/-- (\S+):(\d+)-(\d+) -/\ndef (\w+)_text : List String := \[\n(.*?)\]\n\n", text, re.S):
        go, lo, hi, name, body = m[1], int(m[2]), int(m[3]), m[4], m[5]
        quoted = []
        for line in body.split(",\n"):
            q = re.fullmatch(r'  (?:r#"(.*)"#|r"(.*)"|"([^"\\]*)")', line, re.S)
            if not q:
                sys.exit(f"{path}: {name}: cannot read {line!r}")
            quoted.append(next(x for x in q.groups() if x is not None))
        count += 1
        if quoted != open(os.path.join(repo, go)).read().split("\n")[lo - 1:hi]:
            bad += 1
            print(f"{path}: {name} is not {go}:{lo}-{hi}")
print(f"{count} quotations, {bad} differ")
sys.exit(bad > 0)
