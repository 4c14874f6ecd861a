"""Compares Model/Args with argparse and pathlib of Python 3.11, which must run this script. Usage: args.py DIR, where DIR gets args.txt and
disk.txt with random command lines, directories and paths, and the expected results; Args.txt is then run on them (see args.sh)."""
import argparse, contextlib, io, os, random, sys, tempfile
from pathlib import Path

rnd = random.Random(7)
out = Path(sys.argv[1])
U, R = "\x1f", "\x1e"


class Parser(argparse.ArgumentParser):
    def error(self, message):
        sys.exit(2)


def run(argv):
    acts = []

    def rec(kind):
        def f(s):
            acts.append((kind, s))
            return s

        return f

    class Flag(argparse.Action):
        def __init__(self, option_strings, dest, kind=None, **kw):
            super().__init__(option_strings, dest, nargs=0, **kw)
            self.kind = kind

        def __call__(self, parser, ns, values, option_string=None):
            acts.append((self.kind, ""))

    class Bool(argparse.BooleanOptionalAction):
        def __call__(self, parser, ns, values, option_string=None):
            acts.append((self.dest, "0" if option_string.startswith("--no-") else "1"))

    class Inputs(argparse.Action):
        def __call__(self, parser, ns, values, option_string=None):
            acts.append(("inputs", "|".join(values)))
            setattr(ns, self.dest, values)

    p = Parser(prog="spex", add_help=False)
    p.add_argument("-h", "--help", action=Flag, kind="help")
    p.add_argument("-s", "--skip-figure-on-error", action=Flag, kind="skip")
    p.add_argument("input", nargs="+", action=Inputs)
    p.add_argument("-o", "--output", type=rec("output"), default=None)
    p.add_argument("--validate-json", action=Bool, default=False)
    p.add_argument("-v", "--verbose", action=Bool, default=False)
    p.add_argument("--lint-ignore", type=rec("lint"), default=[])
    try:
        p.parse_args(argv)
        ok = "1"
    except SystemExit:
        ok = "0"
    return R.join([ok] + [f"{k}={v}" for k, v in acts])


words = ["a.html", "b.docx", "", "-", "--", "-5", "-.5", "-5.", "-5.5x", "- x", "-q", "-q r", "-x=3", "--out", "--output", "--output=d", "-o", "-od",
         "-o=d", "-o=", "--output=", "-s", "-sv", "-vs", "-so", "-sod", "-so=d", "-s=", "-s=v", "-sv=", "-s-v", "-sx", "-sxo", "-vhs", "-h", "--help",
         "--h", "--v", "--ve", "--val", "--validate-json", "--no", "--no-v", "--no-ve", "--no-verbose", "--no-validate", "--verbose=1", "--skip",
         "--skip-figure-on-error", "--l", "--lint-ignore", "--lint-ignore=T1000,T1001", "--lint=x=y", "--=x", "---", "--zzz", "--zzz a", "-v", "=", "-=",
         "-=o", "d", "-s a", "--o p", "--output =p", "-5\n", "-5\n\n", "-٣", "--s=", "-hs=", "-ho", "-o--", "--output=--", "-\n"]
lines = []
for w in words:
    for argv in ([w], [w, "a"], ["a", w], ["-o", w], ["a", w, "b"], ["-s", w, "b"], ["--", w], ["a", "--", w]):
        lines.append(argv)
for _ in range(40000):
    lines.append([rnd.choice(words) for _ in range(rnd.randrange(0, 7))])
with open(out / "args.txt", "w", newline="") as fh:
    for argv in lines:
        fh.write(U.join([run(argv)] + argv).replace("\n", "\x1d") + "\n")


def arg_output(arg):
    p = Path(arg)
    if not p.exists():
        p.mkdir(parents=True, exist_ok=True)
    if not p.is_dir():
        raise RuntimeError
    return p


names = ["a", "b", "c"]
with open(out / "disk.txt", "w", newline="") as fh:
    for _ in range(4000):
        with tempfile.TemporaryDirectory() as tmp:
            root = Path(tmp)
            cwd = root / "w"
            cwd.mkdir()
            for _ in range(rnd.randrange(0, 6)):
                p = rnd.choice([root, cwd]).joinpath(*[rnd.choice(names) for _ in range(rnd.randrange(1, 4))])
                with contextlib.suppress(OSError):
                    if rnd.random() < 0.4:
                        p.write_text("")
                    else:
                        p.mkdir(parents=rnd.random() < 0.8)

            def tree():
                ds = sorted(str(q.relative_to(root)) for q in root.rglob("*") if q.is_dir())
                fs = sorted(str(q.relative_to(root)) for q in root.rglob("*") if q.is_file())
                return ds, fs

            ds, fs = tree()
            arg = "/".join(rnd.choice(names + ["..", ".", ""]) for _ in range(rnd.randrange(0, 6)))
            if arg.startswith("/") or arg.count("..") > 1:
                arg = arg.lstrip("/").replace("..", ".")
            os.chdir(cwd)
            try:
                q = arg_output(arg)
                res = str(q.resolve().relative_to(root.resolve()))
            except Exception:
                res = "!"
            p = Path(arg)
            ds2, fs2 = tree()
            assert fs == fs2
            os.chdir("/")
            fh.write(U.join([arg, "|".join(ds), "|".join(fs), res, "|".join(ds2)]) + "\n")
