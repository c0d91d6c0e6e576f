#!/usr/bin/env python3
"""Transcribe the coefficient tables of pandaresampler.cc into lean/Verif/Model/Tables.lean."""
import re, sys
src = open('/repo/include/pandaresampler/pandaresampler.cc').read().split('\n')
def dec(s):
    s = s.strip()
    m = re.fullmatch(r'(-?)(\d+)(?:\.(\d+))?(?:e([+-]\d+))?', s)
    assert m, s
    frac = m.group(3) or ''
    mant = int(m.group(2) + frac)
    e = len(frac) - int(m.group(4) or 0)
    while mant and mant % 10 == 0 and e > 0:
        mant //= 10; e -= 1
    assert e >= 0
    if m.group(1): mant = -mant
    return f'⟨{mant}, {e}⟩'
out = []
w = out.append
w('''/-!
# Coefficient tables (generated by tools/mktables.py from pandaresampler.cc; do not edit)

Every decimal literal is transcribed digit by digit.
-/

namespace Panda

/-- The decimal number `m / 10^e`, i.e. a floating point literal of the C++ source. -/
structure Dec where
  m : Int
  e : Nat
  deriving DecidableEq, Repr

/-- Exact value of a literal. -/
def Dec.toRat (d : Dec) : Rat := mkRat d.m (10 ^ d.e)
''')
i = 0
fir = []; iir = []
cur = None
for ln, line in enumerate(src, 1):
    m = re.match(r'\s*static constexpr double (coeffs\w+)\[(\d+)\]', line)
    m2 = re.match(r'\s*constexpr std::array<double,(\d+)> (coeffs\w+) = \{', line)
    if m or m2:
        cur = dict(name=(m.group(1) if m else m2.group(2)), n=int(m.group(2) if m else m2.group(1)), kind='fir' if m else 'iir', start=ln, vals=[])
        continue
    if cur is not None:
        if re.match(r'\s*\};', line):
            cur['end'] = ln
            assert len(cur['vals']) == cur['n'], cur
            (fir if cur['kind'] == 'fir' else iir).append(cur)
            last = cur
            cur = None
        else:
            m = re.match(r'\s*(-?[\d.]+(?:e[+-]\d+)?),\s*$', line)
            if m: cur['vals'].append(m.group(1))
            else: assert '{' in line or '/*' in line, line
    m = re.match(r'\s*return create_impl_iir_with_coeffs \((coeffs\w+), ([\d.]+)\);', line)
    if m:
        assert m.group(1) == last['name']
        last['gd'] = m.group(2); last['gdline'] = ln
def lname(k, n):
    return k + n[len('coeffs'):].replace('_', 'x', 1) if not n.endswith('linear') else k + 'Linear'
for t in fir + iir:
    k = t['kind']
    w(f'/-- pandaresampler.cc:{t["start"]}-{t["end"]} `{t["name"]}[{t["n"]}]` ({k.upper()}) -/')
    w(f'def {lname(k, t["name"])} : List Dec := [')
    w(',\n'.join('  ' + dec(v) for v in t['vals']))
    w(']\n')
for t in iir:
    w(f'/-- pandaresampler.cc:{t["gdline"]} group delay passed for `{t["name"]}` -/')
    w(f'def {lname("gd", t["name"])} : Dec := {dec(t["gd"])}\n')
w('''/-- One `create_impl_with_coeffs <Upsampler2<ORDER, USE_SSE> > (coeffs, n, scaling)` in `create_impl`
(pandaresampler.cc:746-1070): the stage ratio tested for (0: none, any stage), the precision tested for, whether it is
the upsampler, the template argument `ORDER`, the table, the argument `n` and the (integral) scaling. -/
structure FirCreate where
  stage : Nat
  precision : Nat
  up : Bool
  order : Nat
  table : List Dec
  n : Nat
  scaling : Nat
''')
prec = {'PREC_LINEAR': 1}
rows = []
for ln, line in enumerate(src, 1):
    m = re.match(r'\s*return create_impl_with_coeffs <(Up|Down)sampler2<(\d+), USE_SSE> > \((coeffs\w+), (\d+), (\d)\.0\);', line)
    if 'create_impl_with_coeffs <' in line: assert m, line
    if m:
        c = src[ln - 2]
        c1 = re.match(r'\s*if \((?:stage_ratio == (\d+) && )?precision_ == (\w+) && mode_ == (UP|DOWN)\)', c)
        assert c1, c
        assert (c1.group(3) == 'UP') == (m.group(1) == 'Up')
        p = prec.get(c1.group(2)) or int(c1.group(2))
        rows.append(f'  ⟨{c1.group(1) or 0}, {p}, {"true" if c1.group(3) == "UP" else "false"}, {m.group(2)}, {lname("fir", m.group(3))}, {m.group(4)}, {m.group(5)}⟩')
w('/-- pandaresampler.cc:746-1070: all of them, in order. -/')
w('def firCreate : List FirCreate := [')
w(',\n'.join(rows))
w(']\n')
w('end Panda')
open('/verif/lean/Verif/Model/Tables.lean', 'w').write('\n'.join(out) + '\n')
print([ (lname(t['kind'],t['name']), t['n']) for t in fir+iir])
