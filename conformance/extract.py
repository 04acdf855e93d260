#!/usr/bin/env python3
"""Extract the input/expected pairs of /repo/tests as JSON lines (stdout).

Fields: name, input, expect, setup (dict), mode ("exact" or "joined").
The YAML files use a small subset of YAML, parsed here by hand.
"""
import json, os, re, sys

REPO = "/repo/tests"

def parse_yaml(path):
    lines = open(path, encoding="utf-8").read().split("\n")
    cases, cur, i = [], None, 0
    while i < len(lines):
        l = lines[i]
        if not l.strip() or l.startswith("#") or l.startswith("---") or l.startswith("..."):
            i += 1
            continue
        if not l.startswith(" "):
            name = l.rstrip()
            name = name[:-1].strip().strip("'\"")
            cur = {"name": name}
            cases.append(cur)
            i += 1
            continue
        m = re.match(r"^( +)([A-Za-z]+) *:(.*)$", l)
        if not m:
            i += 1
            continue
        ind, key, rest = len(m.group(1)), m.group(2), m.group(3).strip()
        i += 1
        if rest in ("|", ">", "|-"):
            block = []
            while i < len(lines) and (not lines[i].strip() or len(lines[i]) - len(lines[i].lstrip(" ")) > ind):
                block.append(lines[i])
                i += 1
            base = min((len(b) - len(b.lstrip(" ")) for b in block if b.strip()), default=0)
            # the indentation of a block is the one of its first non-empty line
            for b in block:
                if b.strip():
                    base = len(b) - len(b.lstrip(" "))
                    break
            txt = "\n".join(b[base:] for b in block)
            cur[key] = txt.rstrip("\n") + "\n"
        elif key == "setup":
            d = {}
            while i < len(lines) and re.match(r"^ {4,}\S", lines[i]):
                k, v = lines[i].split(":", 1)
                d[k.strip()] = v.strip()
                i += 1
            cur["setup"] = d
        else:
            if len(rest) > 1 and rest[0] == rest[-1] and rest[0] in "'\"":
                rest = rest[1:-1]
            cur[key] = rest
    return cases

def rust_strings(src, i):
    """Parse one string expression at src[i:]; return (value, next index)."""
    while True:
        while src[i].isspace():
            i += 1
        if src.startswith("//", i):
            i = src.index("\n", i)
            continue
        break
    if src.startswith("concat!", i):
        i = src.index("(", i) + 1
        out = ""
        while True:
            while src[i].isspace() or src[i] == ",":
                i += 1
            if src.startswith("//", i):
                i = src.index("\n", i)
                continue
            if src[i] == ")":
                return out, i + 1
            s, i = rust_strings(src, i)
            out += s
    m = re.compile(r'r(#*)"').match(src, i)
    if m:
        end = '"' + m.group(1)
        j = src.index(end, m.end())
        return src[m.end():j], j + len(end)
    assert src[i] == '"', src[i:i + 60]
    i += 1
    out = ""
    while src[i] != '"':
        c = src[i]
        if c == "\\":
            n = src[i + 1]
            if n == "\n":
                i += 2
                while src[i].isspace():
                    i += 1
                continue
            if n == "u":
                j = src.index("}", i)
                out += chr(int(src[i + 3:j], 16))
                i = j + 1
                continue
            if n == "x":
                out += chr(int(src[i + 2:i + 4], 16))
                i += 4
                continue
            out += {"n": "\n", "t": "\t", "r": "\r", "\\": "\\", '"': '"', "'": "'", "0": "\0"}[n]
            i += 2
        else:
            out += c
            i += 1
    return out, i + 1

def parse_consts(path, name):
    src = open(path, encoding="utf-8").read()
    i = src.index("const " + name)
    i = src.index("= [", i) + 3
    out = []
    while True:
        while src[i].isspace() or src[i] == ",":
            i += 1
        if src.startswith("//", i):
            i = src.index("\n", i)
            continue
        if src[i] == "]":
            return out
        assert src[i] == "(", src[i:i + 50]
        a, i = rust_strings(src, i + 1)
        while src[i].isspace() or src[i] == ",":
            i += 1
        b, i = rust_strings(src, i)
        while src[i] != ")":
            i += 1
        i += 1
        out.append((a, b))

def xcodes(s):
    return re.sub(r"\\x(\d{2})", lambda m: chr(int(m.group(1), 16)), s)

def main():
    out = []
    for f in sorted(os.listdir(REPO + "/fixtures")):
        for c in parse_yaml(REPO + "/fixtures/" + f):
            if "input" not in c or "expect" not in c:
                print("unreadable case", f, c.get("name"), file=sys.stderr)
                continue
            if c.get("assert") == "skip":
                continue
            setup = {"setUid": "xyz"}
            setup.update(c.get("setup", {}))
            out.append({"name": f + ": " + c["name"], "input": xcodes(c["input"].strip()),
                        "expect": c["expect"], "setup": setup, "mode": "joined"})
    h = REPO + "/test_html_values.rs"
    for k, (a, b) in enumerate(parse_consts(h, "HTML_RESTRICTED_MODE_VALUES")):
        out.append({"name": f"html restricted {k}", "input": a, "expect": b,
                    "setup": {"setRestricted": "true", "setUid": "abc"}, "mode": "joined"})
    for k, (a, b) in enumerate(parse_consts(h, "HTML_KNOWN_VALUES")):
        out.append({"name": f"html {k}", "input": a, "expect": b, "setup": {"setUid": "UID"}, "mode": "joined"})
    for k, (a, b) in enumerate(parse_consts(REPO + "/test_xhtml_values.rs", "XHTML_KNOWN_VALUES")):
        out.append({"name": f"xhtml {k}", "input": a, "expect": b,
                    "setup": {"setUid": "abc", "setHtmlType": "xhtml"}, "mode": "exact"})
    for c in out:
        print(json.dumps(c, ensure_ascii=False))

main()
