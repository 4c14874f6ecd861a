"""Checks the laws of the class `Uni` (Verif/Model/PyBasic.lean) and the list of white space characters against this Python's
Unicode tables, for every code point. Only Python itself is used, nothing of the repository."""
import re, sys

SPACES = [0x9, 0xa, 0xb, 0xc, 0xd, 0x1c, 0x1d, 0x1e, 0x1f, 0x20, 0x85, 0xa0, 0x1680, 0x2000, 0x2001, 0x2002, 0x2003,
          0x2004, 0x2005, 0x2006, 0x2007, 0x2008, 0x2009, 0x200a, 0x2028, 0x2029, 0x202f, 0x205f, 0x3000]
word, digit, space = re.compile(r"\w"), re.compile(r"\d"), re.compile(r"\s")
bad = 0


def law(name, ok, c):
    global bad
    if not ok:
        bad += 1
        print("law fails:", name, hex(ord(c)))


def alpha(x):
    return "a" <= x <= "z" or "A" <= x <= "Z"


for i in range(sys.maxunicode + 1):
    if 0xd800 <= i < 0xe000:
        continue
    c = chr(i)
    isw, isd, iss = bool(word.match(c)), bool(digit.match(c)), bool(space.match(c))
    law("spaces", iss == (i in SPACES), c)
    law("isspace", c.isspace() == iss, c)
    law("strip", (c.strip() == "") == iss and (c.split() == []) == iss, c)
    try:
        v = int(c)
    except ValueError:
        v = None
    law("digit value", (v is not None) == isd and (v is None or 0 <= v < 10), c)
    law("digit_word", not isd or isw, c)
    law("space_not_word", not iss or not isw, c)
    u, l = c.upper(), c.lower()
    if i < 128:
        law("isWord_ascii", isw == (alpha(c) or c.isdigit() or c == "_"), c)
        law("digit_ascii", v == (i - 48 if 48 <= i <= 57 else None), c)
        law("upper_ascii", u == (chr(i - 32) if "a" <= c <= "z" else c), c)
        law("lower_ascii", l == (chr(i + 32) if "A" <= c <= "Z" else c), c)
    law("upper_space", not iss or u == c, c)
    for x in u:
        law("upper_idem", x.upper() == x, c)
        law("upper_new", ord(x) >= 128 or alpha(x) or x == c, c)
    # lower is not characterwise (final sigma); these are the characterwise consequences
    law("lower_idem", l.lower() == l, c)
    for x in l:
        law("lower_new", ord(x) >= 128 or alpha(x) or x == c, c)
    for s in ("A" + c, c + "A", "A" + c + "A", "Σ" + c, c + "Σ"):
        law("upper characterwise", s.upper() == "".join(k.upper() for k in s), c)
        law("lower_idem context", s.lower().lower() == s.lower(), c)
    for a in ("A", "(ab", "NOTE", "9:"):
        law("lower_prefix", (a + c).lower().startswith(a.lower()) and (a + c + "Σ").lower().startswith(a.lower()), c)
print("unicode laws:", "ok" if bad == 0 else "%d failures" % bad, "unicodedata", __import__("unicodedata").unidata_version)
