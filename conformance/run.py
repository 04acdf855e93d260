#!/usr/bin/env python3
"""Run the model on the input/expected pairs of /repo/tests.

Builds a driver (driver.lean.txt) outside the repository, feeds it the cases and
compares.  Usage: run.py [WORKDIR]
"""
import json, os, subprocess, sys, unicodedata

here = os.path.dirname(os.path.abspath(__file__))
lean = os.path.join(here, "..", "lean")
work = sys.argv[1] if len(sys.argv) > 1 else "/tmp/conformance"
os.makedirs(work, exist_ok=True)

def build():
    subprocess.check_call(["lake", "build", "Verif.Api"], cwd=lean, stdout=subprocess.DEVNULL)
    env = dict(os.environ, LEAN_PATH=os.path.join(lean, ".lake/build/lib/lean"))
    subprocess.check_call(["cp", os.path.join(here, "driver.lean.txt"), work + "/Driver.lean"])
    subprocess.check_call(["lean", "-c", work + "/driver.c", "Driver.lean"], env=env, cwd=work)
    ir = os.path.join(lean, ".lake/build/ir/Verif")
    need = ["Base", "Regex", "RegexParse", "Patterns", "HtmlTools", "Url", "CharCounter", "Attrs", "State", "Parser", "Api"]
    objs = []
    for src in [work + "/driver.c"] + [f"{ir}/{n}.c" for n in need]:
        o = work + "/" + os.path.basename(src)[:-2] + ".o"
        if not os.path.exists(o) or os.path.getmtime(o) < os.path.getmtime(src):
            subprocess.check_call(["leanc", "-c", "-O1", "-o", o, src])
        objs.append(o)
    subprocess.check_call(["leanc", "-o", work + "/driver"] + objs)

def hexs(s):
    return "".join("%06x" % ord(c) for c in s)

def unhex(s):
    return "".join(chr(int(s[i:i + 6], 16)) for i in range(0, len(s), 6))

def joined(t):
    return "".join(l.strip() for l in t.strip().replace("\t", "").split("\n"))

def main():
    build()
    out = subprocess.check_output([sys.executable, here + "/extract.py"], text=True)
    cases = [json.loads(l) for l in out.split("\n") if l]
    cps = set(range(128))
    for c in cases:
        cps |= set(map(ord, c["input"])) | set(map(ord, c["expect"]))
    with open(work + "/tab", "w") as f:
        for cp in sorted(cps):
            f.write("%d %s %s\n" % (cp, unicodedata.category(chr(cp)), hexs(chr(cp).lower())))
    with open(work + "/cases", "w") as f:
        for c in cases:
            f.write(",".join(k + "=" + v for k, v in c["setup"].items()) + " " + hexs(c["input"]) + "\n")
    res = subprocess.run([work + "/driver", work + "/tab", work + "/cases"], text=True, stdout=subprocess.PIPE)
    lines = res.stdout.split("\n")
    bad = 0
    for c, l in zip(cases, lines):
        got = unhex(l[3:]) if l.startswith("ok ") else (l if not l.startswith("panic") else "panic " + unhex(l[6:]))
        a, b = (got, c["expect"]) if c["mode"] == "exact" else (joined(got), joined(c["expect"]))
        if a != b:
            bad += 1
            print("MISMATCH", c["name"], c["setup"])
            print("  input :", repr(c["input"][:600]))
            print("  expect:", repr(b[:1500]))
            print("  model :", repr(a[:1500]))
    print(f"{len(cases)} cases, {len(cases) - bad} agree, {bad} differ; exit {res.returncode}, lines {len(lines)-1}")

main()
