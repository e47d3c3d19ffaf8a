#!/usr/bin/env python3
"""Generate lean/Verif/Model/CssColors.lean from /repo/vrml/csscolors.py."""
import re, os
root = os.path.dirname(os.path.dirname(os.path.abspath(__file__)))
lines = open('/repo/vrml/csscolors.py').read().split('\n')
start = [i for i, l in enumerate(lines) if l.startswith('cssColors')][0]
end = [i for i, l in enumerate(lines) if i > start and l.startswith('}')][0]
d = re.findall(r"'(\w+)'\s*:\s*\(([^)]*)\)", '\n'.join(lines[start:end]))
def r(x):
    x = float(x); n = round(x * 10000); assert abs(n / 10000 - x) < 1e-12; return n
rows = []
for n, t in d:
    a, b, c = [r(v) for v in t.split(',')]
    rows.append(f'  ("{n}", {a}, {b}, {c})')
assert len(d) == len(set(n for n, _ in d))
out = f'''/-
GENERATED by tools/gen_css.py from /repo/vrml/csscolors.py:{start+1}-{end+1} (cssColors).
Components are in ten-thousandths (all literals of the table have at most four decimals).
-/
namespace Verif.Coerce

/-- csscolors.py:{start+1}-{end+1}. -/
def cssTable : List (String × Nat × Nat × Nat) := [
''' + ',\n'.join(rows) + '''
]

end Verif.Coerce
'''
open(os.path.join(root, 'lean/Verif/Model/CssColors.lean'), 'w').write(out)
print(len(d))
