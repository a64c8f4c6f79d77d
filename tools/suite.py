"""Write lean/Verif/Props/SuiteUrl.lean and SuiteView.lean: the assertions of /repo/test/url.cpp and
/repo/test/url_view.cpp that are a single statement about `url(...)` or `url_view(...)`, as data. Run from /verif."""
import re, sys

ASSERT = re.compile(r'^\s*(BOOST_TEST|BOOST_TEST_THROWS)\((.*)\);\s*$', re.S)
STR = r'"((?:[^"\\]|\\.)*)"'
ACC = {'encoded_url', 'encoded_origin', 'scheme', 'encoded_authority', 'encoded_userinfo', 'userinfo_part', 'encoded_user',
       'user', 'encoded_password', 'password', 'encoded_host_and_port', 'encoded_host', 'host', 'port', 'port_part',
       'encoded_path', 'encoded_query', 'query_part', 'query', 'encoded_fragment', 'fragment_part', 'fragment'}


def statements(lines):
    """(first line number, text) of the assertions; one may continue on following lines"""
    i = 0
    while i < len(lines):
        t = lines[i].strip()
        if t.startswith('BOOST_TEST'):
            n, j = i + 1, i
            while not t.endswith(';'):
                j += 1
                t += ' ' + lines[j].strip()
            # several statements on one line are iterator walks: left to Props/Suite.lean
            yield n, t
            i = j
        i += 1


def lit(s):
    assert '\\' not in s
    return 'b!"%s"' % s


def chain(t, cls):
    """url(...)[.set_x(...)]* -> (init, ops, rest)"""
    m = re.match(r'%s\(\s*(?:%s)?\s*\)\s*' % (cls, STR), t)
    if not m:
        return None
    init, t = m.group(1), t[m.end():]
    ops = []
    while True:
        m = re.match(r'\.(set_\w+|normalize_scheme|normalize)\(\s*(?:%s|(\d+))?\s*\)\s*' % STR, t)
        if not m:
            return init, ops, t
        f, s, n = m.groups()
        if f.startswith('normalize'):
            ops.append('.' + f)
        elif n is not None:
            ops.append('.set_port_number %s' % n)
        else:
            ops.append('.%s %s' % (f, lit(s)))
        t = t[m.end():]


def convert(n, t, cls, var):
    m = ASSERT.match(t)
    if not m:
        return None
    kind, body = m.group(1), m.group(2).strip()
    if var and body.startswith('v.'):
        body = '%s("%s")' % (cls, var) + body[1:]
    c = chain(body, cls)
    if not c:
        return None
    init, ops, rest = c
    if kind == 'BOOST_TEST_THROWS':
        m = re.match(r',\s*(invalid_part)$', rest)
        if not m:
            return None
        chk = '.throws .invalid_part'
    else:
        m = re.match(r'\.(\w+)\(\) == host_type::(\w+)$', rest)
        k = re.match(r'\.(\w+)\(\) == %s$' % STR, rest)
        q = re.match(r'\.segments\(\)\.size\(\) == (\d+)$', rest)
        if m and m.group(1) == 'host_type':
            chk = '.host .%s' % m.group(2)
        elif k and k.group(1) in ACC:
            chk = '.text .%s %s' % (k.group(1), lit(k.group(2)))
        elif q:
            chk = '.segments %s' % q.group(1)
        else:
            return None
    return '  ⟨%d, %s, [%s], %s⟩' % (n, 'none' if init is None else 'some ' + lit(init), ', '.join(ops), chk)


def main():
    for fn, cls, mod, name in [('url.cpp', 'url', 'SuiteUrl', 'urlSuite'), ('url_view.cpp', 'url_view', 'SuiteView', 'viewSuite')]:
        lines = open('/repo/test/' + fn).read().split('\n')
        rows, left, var = [], [], {}
        # the variable `v` of testConstValue / testView
        decl = [(i + 1, re.match(r'\s*%s const v\(%s\);' % (cls, STR), l)) for i, l in enumerate(lines)]
        decl = [(i, m.group(1)) for i, m in decl if m]
        for n, t in statements(lines):
            cur = [s for i, s in decl if i < n]
            r = convert(n, t, cls, cur[-1] if cur else None)
            if r:
                rows.append(r)
            else:
                left.append((n, t))
        total = len(rows) + len(left)
        size = 60
        chunks = [rows[i:i + size] for i in range(0, len(rows), size)]
        with open('lean/Verif/Props/%s.lean' % mod, 'w') as f:
            f.write('import Verif.Props.Suite\n\n/-!\nThe assertions of `/repo/test/%s` that are a single statement, in order. Written by '
                    '`tools/suite.py`; the\nothers are in `Verif.Props.Suite`.\n-/\n\n'
                    'set_option autoImplicit false\n\nnamespace Url.Suite\nopen Spec\n' % fn)
            for i, c in enumerate(chunks):
                f.write('\n/-- `/repo/test/%s`, part %d -/\ndef %s%d : List Line := [\n%s]\n' % (fn, i + 1, name, i + 1, ',\n'.join(c)))
                ok = 'okUrl' if cls == 'url' else 'okView'
                f.write('\n/-- every assertion holds, with and without assertions in the library -/\n'
                        'theorem suite_%s%d : ∀ dbg : Bool, ∀ t ∈ %s%d, t.%s dbg = true := by\n  decide +kernel\n' % (name, i + 1, name, i + 1, ok))
            f.write('\nend Url.Suite\n')
        print('%s: %d of %d assertions' % (fn, len(rows), total), file=sys.stderr)
        for n, t in left:
            print('  %d %s' % (n, t), file=sys.stderr)


main()
