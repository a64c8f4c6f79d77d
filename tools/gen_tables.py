#!/usr/bin/env python3
"""Transcribe the 256-entry byte tables of detail/char_type.hpp into Lean.

Usage: gen_tables.py /repo/include/boost/url/detail/char_type.hpp > lean/Verif/Model/Tables.lean
Only the text of the header is read; nothing is compiled.
"""
import re, sys

src = open(sys.argv[1]).read().split("\n")
want = {"hex_digit": "hexDigitTab", "is_scheme_char": "schemeCharTab",
        "reg_name_pct_set": "regNameTab", "userinfo_pct_set": "userinfoTab",
        "pchar_pct_set": "pcharTab", "pchar_nc_pct_set": "pcharNcTab",
        "frag_pct_set": "fragTab", "qkey_pct_set": "qkeyTab",
        "qval_pct_set": "qvalTab"}

def unescape(s):
    out, i = [], 0
    while i < len(s):
        assert s[i] == "\\", s
        if s[i + 1] == "x":
            m = re.match(r"[0-9a-fA-F]+", s[i + 2:])
            assert len(m.group()) == 2
            out.append(int(m.group(), 16)); i += 4
        else:
            m = re.match(r"[0-7]{1,3}", s[i + 1:])
            out.append(int(m.group(), 8)); i += 1 + len(m.group())
    return out

print("""/-!
Generated by `tools/gen_tables.py` from `/repo/include/boost/url/detail/char_type.hpp`.
Each list is the contents of the `static constexpr char tab[]` array at the cited
lines (as unsigned values, without the terminating null of the string literal).
-/

namespace Url
namespace Tables
""")
i = 0
while i < len(src):
    m = re.match(r"^([a-z_0-9]+)\(", src[i])
    if m and m.group(1) in want:
        name = m.group(1)
        j = i
        while "static constexpr char tab[]" not in src[j]:
            j += 1
        a = j + 1
        vals = []
        j += 1
        while not src[j].strip() == ";":
            line = src[j].split("//")[0]
            for lit in re.findall(r'"([^"]*)"', line):
                vals += unescape(lit)
            j += 1
        assert len(vals) == 256, (name, len(vals))
        print(f"/-- `detail/char_type.hpp:{a+1}-{j}`, the table of `{name}`. -/")
        print(f"def {want.pop(name)} : List Nat := [")
        rows = [", ".join(map(str, vals[r:r + 16])) for r in range(0, 256, 16)]
        print("  " + ",\n  ".join(rows) + "]\n")
        i = j
    i += 1
assert not want, want
print("end Tables\nend Url")
