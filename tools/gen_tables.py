#!/usr/bin/env python3
"""Generate lean/Verif/Model/Tables.lean and lean/Verif/Model/Names.lean from the sources in /repo."""
import re
SRC = '/repo/pywt/_extensions/c/wavelets_coeffs.template.h'
PXI = '/repo/pywt/_extensions/wavelets_list.pxi'
OUT = '/verif/lean/Verif/Model/'

src = open(SRC).read()


def lit(t):
    """The literal as (integer, number of decimal places)."""
    m = re.fullmatch(r'([+-]?)(\d+)\.(\d*)(?:[eE]([+-]?\d+))?', t)
    sign, a, b, e = m.groups()
    k = len(b) - (int(e) if e else 0)
    assert k >= 0
    n = int(a + b)
    return f"({'-' if sign == '-' and n else ''}{n}, {k})"


tabs = {}
for m in re.finditer(r'static const TYPE CAT\((\w+?)_, TYPE\)\[(\d+)\] = \{([^}]*)\}', src):
    name, n, body = m.groups()
    body = re.sub(r'//.*', '', body)
    toks = [t.strip() for t in body.split(',') if t.strip()]
    assert len(toks) == int(n), name
    tabs[name] = (toks, src[:m.start()].count('\n') + 1, src[:m.end()].count('\n') + 1)
m = re.search(r'static const TYPE CAT\(sqrt2_, TYPE\) = ([\d.]+);', src)
sqrt2 = (m.group(1), src[:m.start()].count('\n') + 1)

o = ['''/-!
# The filter tables of `pywt/_extensions/c/wavelets_coeffs.template.h`

Generated by `tools/gen_tables.py`.  The pair `(n, k)` is the literal `n·10⁻ᵏ`, digit for digit as in the
source.
-/

namespace Pywt
namespace Tables

/-- A decimal literal `n·10⁻ᵏ`. -/
abbrev Lit := Int × Nat
''']
for name, (toks, a, b) in tabs.items():
    o.append(f'/-- `{name}` (wavelets_coeffs.template.h L{a}-{b}). -/')
    o.append(f'def {name} : List Lit := [')
    o.append(',\n'.join('  ' + lit(t) for t in toks) + ']\n')
o.append(f'/-- `sqrt2` (wavelets_coeffs.template.h L{sqrt2[1]}). -/')
o.append(f'def sqrt2 : Lit := {lit(sqrt2[0])}\n')


def arr(name, doc):
    m = re.search(r'static const TYPE \* const CAT\(%s_, TYPE\)\[(\d+)\] = \{([^}]*)\}' % name, src)
    items = re.findall(r'CAT\((\w+?)_, TYPE\)', m.group(2))
    assert len(items) == int(m.group(1))
    a, b = src[:m.start()].count('\n') + 1, src[:m.end()].count('\n') + 1
    o.append(f'/-- `{name}` (wavelets_coeffs.template.h L{a}-{b}). -/')
    o.append(f'def {doc} : List (List Lit) := [{", ".join(items)}]\n')


for n in ['db', 'sym', 'coif', 'bior1', 'bior2', 'bior3', 'bior4', 'bior5', 'bior6']:
    arr(n, n)
m = re.search(r'static const TYPE \* const \(\* const CAT\(bior_, TYPE\)\[6\]\) = \{([^}]*)\}', src)
items = re.findall(r'CAT\((\w+?)_, TYPE\)', m.group(1))
o.append(f'/-- `bior` (wavelets_coeffs.template.h L{src[:m.start()].count(chr(10)) + 1}). -/')
o.append(f'def bior : List (List (List Lit)) := [{", ".join(items)}]\n')
o.append('end Tables\nend Pywt')
open(OUT + 'Tables.lean', 'w').write('\n'.join(o) + '\n')

pxi = open(PXI).read()
ents = re.findall(r'"([\w.]+)": \((\w+), (\d+)\)', pxi)
first = pxi[:pxi.index('__wname_to_code = {')].count('\n') + 1
last = pxi[:pxi.index('"cmor": (CMOR, 0)')].count('\n') + 2
n = [f'''/-!
# The table of wavelet names of `pywt/_extensions/wavelets_list.pxi`

Generated by `tools/gen_tables.py`.
-/

namespace Pywt

/-- `WAVELET_NAME` (wavelets_list.pxi L8-24, c/wavelets.h). -/
inductive Family
  | haar | rbio | db | sym | coif | bior | dmey | gaus | mexh | morl | cgau | shan | fbsp | cmor
  deriving DecidableEq, Repr

/-- `__wname_to_code` (wavelets_list.pxi L{first}-{last}). -/
def wnameToCode : List (String × Family × Nat) := [''']
n.append(',\n'.join(f'  ("{a}", .{b.lower()}, {c})' for a, b, c in ents) + ']\n')
n.append('end Pywt')
open(OUT + 'Names.lean', 'w').write('\n'.join(n) + '\n')
print(len(tabs), 'tables', len(ents), 'names')
