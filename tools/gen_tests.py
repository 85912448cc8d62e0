#!/usr/bin/env python3
"""Transcribes the data rows of /repo/tests/interactivedifftest.cpp into lean/Verif/Tests.lean (evaluated conformance tests of the model)."""
import re
src = open('/repo/tests/interactivedifftest.cpp').read()
def lit(s):  # all string literals of a C++ expression, adjacent ones joined
    out = []; i = 0
    for m in re.finditer(r'<<|"((?:[^"\\]|\\.)*)"', s):
        if m.group(0) == '<<': out.append(None)
        else:
            if out and out[-1] is None: out[-1] = m.group(1)
            elif out: out[-1] += m.group(1)
            else: out.append(m.group(1))
    return [o for o in out if o is not None]
def lean(ls): return '[' + ', '.join('"%s"' % l for l in ls) + ']'
def decls(block):
    d = {}
    for m in re.finditer(r'(\w+)\s*<<(.*?);', block, re.S):
        if m.group(1) in ('QTest',): continue
        d.setdefault(m.group(1), [])
        d[m.group(1)] += lit('<<' + m.group(2))
    return d
def blocks(fn):
    body = src[src.index('void InteractiveDiffTest::' + fn + '()'):]
    body = body[:body.index('\n}\n')]
    return [b for b in re.findall(r'\n    \{\n(.*?)\n    \}', body, re.S)]
out = []
for b in blocks('testDifferenceContents_data'):
    d = decls(re.sub(r'QTest::newRow.*', '', b, flags=re.S))
    row = re.search(r'QTest::newRow\("(.*?)"\) << patch << oldLines << newLines << (\d+) << (\w+) << (\d+)', b)
    exp = []
    for m in re.finditer(r'expectedDifferences\.insert\((\d+), qMakePair\((.*?)\)\);', b):
        a = m.group(2)
        if a == 'sourceLines, destinationLines': p = (d['sourceLines'], d['destinationLines'])
        else:
            x, y = a.split(', QStringList()')
            p = (lit(x), lit(y))
        exp.append('(%s, %s, %s)' % (m.group(1), lean(p[0]), lean(p[1])))
    out.append('/-- "%s" -/\n#guard contentsRow %s\n  %s %s %s %s %s [%s]' % (row.group(1), lean(d['patch']), lean(d['oldLines']), lean(d['newLines']), row.group(2), row.group(3), row.group(4), ', '.join(exp)))
for b in blocks('testLineNumbers_data'):
    d = decls(re.sub(r'QTest::newRow.*', '', b, flags=re.S))
    row = re.search(r'QTest::newRow\("(.*?)"\) << patch << oldLines << newLines << (\d+) << (\d+)', b)
    exp = ['(%s, %s, %s)' % m for m in re.findall(r'expectedLineNumbers\.insert\((\d+), qMakePair\((\d+), (\d+)\)\)', b)]
    out.append('/-- "%s" -/\n#guard lineNumbersRow %s\n  %s %s %s %s [%s]' % (row.group(1), lean(d['patch']), lean(d['oldLines']), lean(d['newLines']), row.group(2), row.group(3), ', '.join(exp)))
out = [re.sub(r'^/-- (.*) -/\n', r'-- \1\n', o) for o in out]
def patchOf(fn):
    body = src[src.index(fn + '()\n'):]
    body = body[:body.index('Parser parser')]
    body = re.sub(r'//.*', '', body)
    m = re.search(r'patch <<(.*);', body, re.S)
    return lean(lit('<<' + m.group(1)))
hand = open('/verif/tools/tests_hand.txt').read()
for fn, key in (('InteractiveDiffTest::testApplyUnapply', '@APPLY@'), ('static void contextDiff1', '@CTX1@'), ('static void contextDiff2', '@CTX2@'), ('InteractiveDiffTest::testNormalDiff', '@NORMAL@')):
    hand = hand.replace(key, patchOf(fn))
open('/verif/lean/Verif/Tests.lean', 'w').write(hand.replace('@ROWS@', '\n'.join(out)))
print(len(out), 'rows')
