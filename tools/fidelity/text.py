"""Writes random strings and what the expressions and string functions of /repo's text processing give on them, by python itself.

Only the patterns are copied from /repo (regular_expressions.py:45-71, document.py:79, header.py:12); none of its code is run.
Each line: kind, argument, result; strings are given as code points joined by '.', 'E' when empty, 'N' for None.
Usage: text.py DIR
"""
import html
import json
import random
import re
import sys
from pathlib import Path, PurePosixPath

D = re.DOTALL
PATTERNS = [
    ("struct", re.compile(r"^(?P<label>[\w\s,-/&]*)\(?(?P<acronym>[\w\s\d]*)?\)?:?(?P<brief>.+)?$", D), ["label", "acronym", "brief"]),
    ("value", re.compile(r"^(?P<label>[\w\s/-]*):?(?P<brief>.+)?$", D), ["label", "brief"]),
    ("range", re.compile(r"(?P<high>\d+)\s*(:\s*(?P<low>\d+))?"), ["high", "low"]),
    ("dynamic", re.compile(r"^(?P<low>[a-zA-Z0-9+\-*()\s]+):(?P<high>[a-zA-Z0-9+\-*()\s]+)"), ["low", "high"]),
    ("ellipsis", re.compile(r"^[\s]*[\.\.\.]|[…][\s]*$"), []),
    ("valid", re.compile(r"^[a-zA-Z][\w]*$"), []),
    ("rearr", re.compile(r"^(\d+)(.*)"), [1, 2]),
    ("table", re.compile(r"^Figure (?P<id>\d+):.*"), ["id"]),
    ("fig", re.compile(r"Figure\s+(?P<figid>[^\s^:]+).*"), ["figid"]),
    ("rev", re.compile(r".*[Rr]evision\s+(?P<rev>\S+).*"), ["rev"]),
]
PIECES = {
    "struct": "aB3_ \n,-./&():+;'… ", "value": "aB3_ \n/-:,.(…", "range": "0123 \t::x", "dynamic": "aZ09+-*() \n::,_",
    "ellipsis": [".", "...", "…", " ", "\n", " ", "a"], "valid": ["a", "Z", "0", "_", "\n", " ", "-", "q"],
    "rearr": "0129ab \n_.", "table": ["Figure", "Figure ", " ", "1", "23", ":", "\n", "x", "."],
    "fig": ["Figure", "Figure ", " ", "\t", "1", "23", ":", "^", "\n", "x", ".", " "],
    "rev": ["Revision", "revision", "Revision ", "evision", " ", "1.0", ",", "\n", "R", " ", "x"],
}


def enc(s):
    return "N" if s is None else "E" if s == "" else ".".join(str(ord(c)) for c in s)


def main():
    out = open(Path(sys.argv[1]) / "text.txt", "w")
    rnd = random.Random(7)

    def pick(pieces, n):
        return "".join(rnd.choice(pieces) for _ in range(rnd.randrange(n + 1)))

    def put(kind, arg, *res):
        print(kind, enc(arg), *res, file=out)

    for name, pat, groups in PATTERNS:
        for _ in range(6000):
            s = pick(PIECES[name], 11)
            m = pat.match(s)
            put(name, s, "0") if m is None else put(name, s, "1", *[enc(m.group(g)) for g in groups])

    odd = "ab  \t\n\r\x0b\x0c\x1c\x1d\x1e\x1f\x85    ​    　﻿᠎"
    for _ in range(4000):
        s = pick(odd, 9)
        put("strip", s, enc(s.strip()))
        put("words", s, *[enc(w) for w in s.split()])
        s = pick("0123456789_+- \n\x1f\x1c ax", 6)
        try:
            put("int", s, enc(str(int(s))))
        except ValueError:
            put("int", s, enc(None))
        s = pick("aZ é√,9_\nzß", 6)
        put("upper", s, enc(s.upper())) if s.isascii() else None
        put("lower", s, enc(s.lower())) if s.isascii() else None
        s = pick(["a", " ", "  ", "\n", "b", "   "], 7)
        put("blanks", s, enc(re.sub(" +", " ", s)))
        s = pick("a&<>\"'=;\n é", 8)
        put("escape", s, enc(html.escape(s)))
        s = pick("a\"\\/\n\r\t\b\f\x00\x1f\x7f\x80é√퟿￿\U00010000\U0010ffff😀", 7)
        put("json", s, enc(json.dumps(s)))
        put("jsonu", s, enc(json.dumps(s, ensure_ascii=False)))
        s = pick("ab,\n", 7)
        put("split", s, *[enc(w) for w in s.split(",")])
        s = rnd.choice(["a", ".", ""]) + pick("ab..x", 6)
        if s not in ("", ".", ".."):
            put("stem", s, enc(PurePosixPath(s).stem))
            put("suffix", s, enc(PurePosixPath(s).suffix))

    def value(depth):
        k = rnd.randrange(7 if depth else 5)
        if k == 0:
            return rnd.choice([None, True, False])
        if k == 1:
            return rnd.choice([0, 7, -1, 10**20, -4300])
        if k < 5:
            return pick('a"\\/\n\té😀{}[]:, ', 4)
        if k == 5:
            return [value(depth - 1) for _ in range(rnd.randrange(4))]
        return {pick('ab"é', 3): value(depth - 1) for _ in range(rnd.randrange(4))}

    def again(x):
        """the text which json.dumps gives for a value read with its pairs kept; floats are outside of the model"""
        if isinstance(x, float):
            raise KeyError
        if isinstance(x, list):
            return "[" + ", ".join(again(y) for y in x) + "]"
        if isinstance(x, tuple):
            "".join(k for k, _ in x).encode()
            return "{" + ", ".join(json.dumps(k) + ": " + again(y) for k, y in x) + "}"
        if isinstance(x, str):
            x.encode()  # a lone surrogate is outside of the model
        return json.dumps(x)

    for _ in range(6000):
        v = value(4)
        put("dump", json.dumps(v), enc(json.dumps(v, indent=2, ensure_ascii=False)))
        put("dumps", json.dumps(v, indent=rnd.choice([None, 0, 1])), enc(json.dumps(v)))
        t = json.dumps(v, ensure_ascii=rnd.random() < 0.5, separators=rnd.choice([(",", ":"), (" ,", "\t: ")]))
        for _ in range(rnd.randrange(3)):
            i = rnd.randrange(len(t) + 1)
            t = t[:i] + rnd.choice(["", " ", "\n", "\r", "0", "-", "1", '"', ",", "]", "}", "\\", "\\u00e9", "\\ud83d\\ude00", "\xa0", "\x01"]) + t[i + rnd.randrange(2):]
        try:
            put("loads", t, enc(again(json.loads(t, object_pairs_hook=tuple))))
        except (KeyError, UnicodeEncodeError):
            pass
        except ValueError:
            put("loads", t, enc(None))


main()
