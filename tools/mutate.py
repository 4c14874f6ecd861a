"""Seeds bugs into a scratch copy of the model and finds the theorems which no longer hold.

usage: mutate.py mutants.json out.jsonl [scratch dir]
mutants.json: list of {"def", "file", "old", "new", "claim"}; `file` is relative to lean/Verif.
The proof of every declaration which fails is replaced by `sorry` in the scratch copy until it builds. A theorem of the manifest
fails if it then depends on `sorry`."""
import json, os, re, shutil, subprocess, sys

HERE = os.path.dirname(os.path.dirname(os.path.abspath(__file__)))
SRC = os.path.join(HERE, "lean")
TOP = re.compile(r"^(?:@\[[^\]]*\]\s*)?(?:private |protected |noncomputable )*(theorem|lemma|def|example|instance|inductive|structure|abbrev|macro)\b\s*(\S*)")


def run(cmd, cwd):
    return subprocess.run(cmd, cwd=cwd, stdout=subprocess.PIPE, stderr=subprocess.STDOUT, text=True, timeout=3600)


def sorry_out(path, line):
    """replaces the proof of the declaration around `line`; returns its name"""
    ls = open(path).read().split("\n")
    i = min(line, len(ls)) - 1
    while i >= 0 and not TOP.match(ls[i]):
        i -= 1
    if i < 0:
        return None
    m = TOP.match(ls[i])
    j = i + 1
    while j < len(ls) and not (ls[j].startswith(("/--", "/-!", "omit", "open", "section", "end", "include", "variable", "namespace", "@[", "set_option")) or TOP.match(ls[j])):
        j += 1
    body = "\n".join(ls[i:j])
    name = "%s %s" % (m.group(1), m.group(2)) if m.group(1) != "example" else "example %s:%d" % (os.path.basename(path), i + 1)
    if m.group(1) not in ("theorem", "lemma", "example"):
        return "!" + name
    k = None
    # proofs by equations
    eq = re.search(r"\n  \| ", body)
    if eq and not re.search(r":= by\b|\bwith$", body[:eq.start()]):
        new = body[:eq.start()] + " := sorry"
        pad = body.count("\n") - new.count("\n")
        ls[i:j] = (new + "\n" * pad).split("\n")
        open(path, "w").write("\n".join(ls))
        return name
    for pat in (r":= by\n", r":= by ", r":=\n(?=\s)", r" := "):
        ms = list(re.finditer(pat, body + "\n"))
        if pat == r" := ":
            ms = ms[-1:]
        if ms:
            k = ms[0].start()
            # a `letI := x` inside the statement ends with `x`, not with `by`
            break
    if k is None or "sorry" in body[k:k + 12]:
        return "!" + name
    new = body[:k] + ":= sorry"
    pad = body.count("\n") - new.count("\n")
    ls[i:j] = (new + "\n" * pad).split("\n")
    open(path, "w").write("\n".join(ls))
    return name


def manifest():
    m = json.load(open(os.path.join(HERE, "MANIFEST.json")))
    return sorted({t for c in m["claims"] for t in c["theorems"]})


def test(mut, scratch):
    d = os.path.join(scratch, "lean")
    os.makedirs(scratch, exist_ok=True)
    run(["rsync", "-a", "--delete", SRC + "/", d + "/"], "/") if shutil.which("rsync") else (shutil.rmtree(d, True), shutil.copytree(SRC, d, symlinks=True))
    p = os.path.join(d, "Verif", mut["file"])
    s = open(p).read()
    assert s.count(mut["old"]) == 1, (mut["def"], s.count(mut["old"]))
    open(p, "w").write(s.replace(mut["old"], mut["new"]))
    direct = []
    for _ in range(40):
        out = run(["lake", "build"], d).stdout
        errs = re.findall(r"error: (Verif/\S+\.lean):(\d+):\d+:", out)
        if not errs:
            if "error" in out and "Build completed" not in out:
                # a prover ran out of memory: usually in an example, which is evaluated; take the examples out of that file
                got = []
                for f in re.findall(r"^- (Verif\S*)", out, re.M):
                    p = os.path.join(d, f.replace(".", "/") + ".lean")
                    ls = open(p).read().split("\n")
                    for i in range(len(ls) - 1, -1, -1):
                        if ls[i].startswith("example") or re.match(r"theorem \S*_false\b", ls[i]):
                            x = sorry_out(p, i + 1)
                            if x and not x.startswith("!"):
                                got.append(x)
                if not got:
                    return {"broken": out[-600:], "direct": direct}
                direct.extend(got)
                continue
            break
        # one error per declaration, from the end of each file so that lines keep their numbers
        done = set()
        progress = False
        for f, l in sorted(set((f, int(l)) for f, l in errs), key=lambda x: (x[0], -x[1])):
            n = sorry_out(os.path.join(d, f), l)
            if n and n.startswith("!"):
                if n in done or n[1:] in direct:
                    continue
                return {"broken": n, "direct": direct}
            if n and n not in done:
                done.add(n)
                direct.append(n)
                progress = True
        if not progress:
            return {"broken": "no progress", "direct": direct}
    else:
        return {"broken": "too many rounds", "direct": direct}
    thms = manifest()
    t = os.path.join(d, "Ax.lean")
    open(t, "w").write("import Verif\n" + "".join("#print axioms %s\n" % x for x in thms))
    out = run(["lake", "env", "lean", "Ax.lean"], d).stdout
    os.remove(t)
    failed = re.findall(r"'([^']+)' depends on axioms: \[[^\]]*sorryAx", out)
    return {"direct": direct, "failed": [x.replace("Spex.", "") for x in failed]}


def main():
    muts = json.load(open(sys.argv[1]))
    scratch = sys.argv[3] if len(sys.argv) > 3 else "/tmp/mut/scratch"
    for mut in muts:
        try:
            r = test(mut, scratch)
        except AssertionError as e:
            r = {"broken": "edit does not apply: %s" % (e,)}
        rec = {**mut, **r}
        with open(sys.argv[2], "a") as f:
            f.write(json.dumps(rec) + "\n")
        print(mut["def"], "|", mut["claim"], "|", r.get("failed"), r.get("direct"), r.get("broken", ""), flush=True)


if __name__ == "__main__":
    main()
