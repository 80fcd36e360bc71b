#!/usr/bin/env python3
"""Compare the by-reference implementations of an operator in /repo with the by-value one.

The model has one definition per operator; the source has up to four implementations (`a + b`, `a + &b`, `&a + b`,
`&a + &b`), often produced by macros. This script groups the implementations by the operator and by their types with
references and lifetimes removed, removes references from the bodies, and reports every group whose bodies differ.
"""
import glob, re, sys

OPS = "Add Sub Mul Div Rem Neg AddAssign SubAssign MulAssign DivAssign RemAssign".split()

def strip_comments(s):
    s = re.sub(r"/\*[\s\S]*?\*/", "", s)
    return re.sub(r"//[^\n]*", "", s)

def block(s, i):
    depth, j = 0, i
    while True:
        if s[j] == "{": depth += 1
        elif s[j] == "}":
            depth -= 1
            if depth == 0: return s[i:j + 1], j + 1
        j += 1

def norm_type(t):
    t = re.sub(r"&\s*('\w+\s*)?(mut\s+)?", "", t)
    t = re.sub(r"'\w+\s*,?\s*", "", t)
    return re.sub(r"\s+", "", t)

def norm_body(b):
    b = re.sub(r"&\s*('\w+\s*)?(mut\s+)?", "", b)
    b = re.sub(r"\(\s*\*\s*([\w.]+)\s*\)", r"\1", b)
    b = re.sub(r"'\w+", "", b)
    b = re.sub(r"([-+*/%=(,{]\s*)\*\s*(?=\w)", r"\1", b)
    return re.sub(r"\s+", "", b)

def main():
    groups = {}
    for f in sorted(glob.glob("/repo/crates/*/src/*.rs")):
        s = strip_comments(open(f).read())
        for m in re.finditer(r"\bimpl\b(?:<[^{}]*?>)?\s*ops::(\w+)(<[^{}]*?>)?\s+for\s+([^{}]*?)(?:\s+where\b[^{}]*)?\s*\{", s):
            op, rhs, lhs = m.group(1), m.group(2) or "", m.group(3)
            if op not in OPS: continue
            body, _ = block(s, m.end() - 1)
            fn = re.search(r"\bfn\s+\w+\s*\([^)]*\)[^{]*\{", body)
            code, _ = block(body, fn.end() - 1)
            key = (f.split("crates/")[1], op, norm_type(rhs), norm_type(lhs))
            groups.setdefault(key, []).append((s.count("\n", 0, m.start()) + 1, norm_body(code)))
    bad = 0
    for key, impls in sorted(groups.items()):
        bodies = {b for _, b in impls}
        if len(bodies) > 1:
            bad += 1
            print(*key)
            for n, b in impls: print("   ", n, b[:300])
    n = sum(len(v) for v in groups.values())
    print(f"{n} implementations in {len(groups)} groups, {bad} groups with different bodies")

main()
