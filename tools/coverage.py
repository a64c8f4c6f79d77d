"""Which lines of the source are cited by a definition of the model, and which are not."""
import re, glob, os, sys
R = "/repo/include/boost/url/"
cited = {}
for f in glob.glob(os.path.join(os.path.dirname(os.path.abspath(__file__)), "../lean/Verif/Model/*.lean")):
    txt = open(f).read()
    for doc in re.findall(r"`([^`]*)`", txt):
        for m in re.finditer(r"((?:impl/|detail/)?\w+\.[hi]pp):(\d+)(?:-(\d+))?", doc):
            a = int(m.group(2)); b = int(m.group(3) or a)
            cited.setdefault(m.group(1), set()).update(range(a, b + 1))
tot = cov = 0
for root, _, fs in os.walk(R):
    for f in sorted(fs):
        p = os.path.join(root, f); rel = p[len(R):]
        lines = open(p).read().split("\n")
        c = cited.get(rel, set())
        un = []; incomment = False
        for i, l in enumerate(lines, 1):
            t = l.strip()
            if incomment:
                if "*/" in t: incomment = False
                continue
            if t.startswith("/*"):
                if "*/" not in t: incomment = True
                continue
            if not t or t.startswith("//") or t.startswith("#") or t in "{}" or t in ("};", "public:", "private:"): continue
            tot += 1
            if i in c: cov += 1
            else: un.append(i)
        runs = []
        for i in un:
            if runs and i <= runs[-1][1] + 4: runs[-1][1] = i
            else: runs.append([i, i])
        print(rel, "cited", len(c), "| not cited:", ", ".join(f"{a}-{b}" for a, b in runs))
print(cov, "of", tot, "code lines cited")
