"""For each definition of the model with a citation and a name, check that the name occurs in the cited lines."""
import re, glob, os
R = "/repo/include/boost/url/"
D = os.path.join(os.path.dirname(os.path.abspath(__file__)), "../lean/Verif/Model/")
bad = 0; n = 0
for f in sorted(glob.glob(D + "*.lean")):
    txt = open(f).read()
    for m in re.finditer(r"/--(.*?)-/\s*(?:@\[\w+\]\s*)?(?:def|structure|inductive|abbrev)\s+([\w.]+)", txt, re.S):
        doc, name = m.group(1), m.group(2).split(".")[-1].rstrip("_")
        cites = re.findall(r"((?:impl/|detail/)?\w+\.[hi]pp):(\d+)(?:-(\d+))?", doc)
        for file, a, b in cites:
            n += 1
            a = int(a); b = int(b or a)
            lines = open(R + file).read().split("\n")
            body = "\n".join(lines[a - 1:b])
            names = [name] + [w for w in re.findall(r"`([\w=+*\-\[\]]+)", doc)]
            hit = any(w in body for w in names)
            edge = lines[a - 1].strip() != "" and b <= len(lines) and lines[b - 1].strip() != ""
            if not hit or not edge:
                bad += 1
                print(os.path.basename(f), m.group(2), file, a, b, "| first:", lines[a - 1].strip()[:40], "| last:", lines[b - 1].strip()[:40])
print(n, "citations,", bad, "to look at")
