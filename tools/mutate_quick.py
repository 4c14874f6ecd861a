"""As mutate.py, but with one build per edit: the theorems of the manifest which fail are those which depend (in the unedited
project) on a declaration that no longer builds. What comes after a module that fails is not built, so there may be more.

usage: mutate_quick.py mutants.json out.jsonl scratch_dir deps.txt
deps.txt: per line a theorem of the manifest and the theorems on which it depends."""
import json, os, re, shutil, subprocess, sys

from mutate import SRC, TOP, run


def declaration(path, line):
    ls = open(path).read().split("\n")
    i = min(line, len(ls)) - 1
    while i >= 0 and not TOP.match(ls[i]):
        i -= 1
    if i < 0:
        return None
    m = TOP.match(ls[i])
    return "example %s:%d" % (os.path.basename(path), i + 1) if m.group(1) == "example" else "%s %s" % (m.group(1), m.group(2))


def siblings(path, line):
    """the theorems of the mutual block around the line: if one fails, all do"""
    ls = open(path).read().split("\n")
    i = min(line, len(ls)) - 1
    while i >= 0 and ls[i] not in ("mutual", "end"):
        i -= 1
    if i < 0 or ls[i] == "end":
        return set()
    j = ls.index("end", i)
    ms = [TOP.match(l) for l in ls[i:j]]
    return {m.group(2).split(".")[-1] for m in ms if m and m.group(1) in ("theorem", "lemma")}


def strip_examples(path):
    """an example which is false now may need more memory than there is: leave the examples out"""
    out, skip = [], False
    for i, l in enumerate(open(path).read().split("\n")):
        if l.startswith("example"):
            skip = True
            out.append("theorem stripped_%d : True := trivial" % i)
        elif skip and (not l or l[0] == " "):
            out.append("")
        else:
            skip = False
            out.append(l)
    open(path, "w").write("\n".join(out))


def test(mut, scratch, deps):
    d = os.path.join(scratch, "lean")
    shutil.rmtree(d, True)
    shutil.copytree(SRC, d, symlinks=True)
    p = os.path.join(d, "Verif", mut["file"])
    s = open(p).read()
    assert s.count(mut["old"]) == 1, (mut["def"], s.count(mut["old"]))
    open(p, "w").write(s.replace(mut["old"], mut["new"]))
    out = run(["lake", "build"], d).stdout
    for m in set(re.findall(r"trace: .*/(Verif/\S+\.lean) -o .*\nerror: Lean exited with code 137", out)):
        strip_examples(os.path.join(d, m))
        out = ""
    out = out or run(["lake", "build"], d).stdout
    errs = set(re.findall(r"error: (Verif/\S+\.lean):(\d+):\d+:", out))
    examples = []
    while errs:
        now = {declaration(os.path.join(d, f), int(l)) or "?" for f, l in errs}
        if not all(x.startswith("example") for x in now):
            break
        examples = sorted({*examples, *now})
        for f in {f for f, _ in errs}:
            strip_examples(os.path.join(d, f))
        out = run(["lake", "build"], d).stdout
        errs = set(re.findall(r"error: (Verif/\S+\.lean):(\d+):\d+:", out))
    if not errs:
        return {"direct": examples, "failed": []} if "Build completed" in out else {"direct": examples, "broken": out[-600:]}
    direct = examples + sorted({declaration(os.path.join(d, f), int(l)) or "?" for f, l in errs})
    defs = [x for x in direct if not x.startswith(("theorem", "lemma", "example"))]
    if defs:
        return {"broken": "!" + defs[0], "direct": direct}
    bad = {x.split(" ", 1)[1].split(".")[-1] for x in direct if not x.startswith("example")}
    for f, l in errs:
        bad |= siblings(os.path.join(d, f), int(l))
    failed = [t for t, ds in deps.items() if {x.split(".")[-1] for x in ds} & bad]
    return {"direct": direct, "failed": failed}


def main():
    deps = {}
    for l in open(sys.argv[4]):
        w = l.split()
        deps[w[0].replace("Spex.", "")] = w
    for mut in json.load(open(sys.argv[1])):
        try:
            r = test(mut, sys.argv[3], deps)
        except AssertionError as e:
            r = {"broken": "!edit does not apply: %s" % (e,)}
        with open(sys.argv[2], "a") as f:
            f.write(json.dumps({**mut, **r}) + "\n")
        print(mut["def"], "|", mut["claim"], "|", r.get("failed"), r.get("direct"), r.get("broken", ""), flush=True)


if __name__ == "__main__":
    main()
