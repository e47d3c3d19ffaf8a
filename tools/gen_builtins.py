#!/usr/bin/env python3
"""Generate lean/Verif/Model/BuiltinTable.lean from the node declarations in /repo (read as text, via ast)."""
import ast, os
from fractions import Fraction
root = os.path.dirname(os.path.dirname(os.path.abspath(__file__)))
files = ['vrml97/basenodes.py', 'vrml97/shaders.py', 'vrml97/nurbs.py']
rows, evs, count, classes, base = [], [], {}, [], []
def dec(src):
    """exact decimal literal as (mantissa, number of decimals)"""
    f = Fraction(src); k = 0
    while f.denominator != 1: f *= 10; k += 1
    return f'({f.numerator}, {k})'
def num(n, text):
    if isinstance(n, ast.UnaryOp) and isinstance(n.op, ast.USub):
        return num(n.operand, text)[0], -num(n.operand, text)[1]
    assert isinstance(n, ast.Constant) and not isinstance(n.value, (bool, str))
    seg = ast.get_source_segment(text, n)
    return type(n.value), Fraction(seg)
def d2(fr):
    k = 0
    while fr.denominator != 1: fr *= 10; k += 1
    return f'({fr.numerator}, {k})'
def dflt(n, text):
    if isinstance(n, ast.Name) and n.id == 'list': return '.empty'
    if isinstance(n, ast.Attribute) and n.attr == 'NULL': return '.null'
    if isinstance(n, ast.Constant) and isinstance(n.value, bool): return f'.bool {"true" if n.value else "false"}'
    if isinstance(n, ast.Constant) and isinstance(n.value, str): return f'.str "{n.value}"'
    if isinstance(n, ast.List):
        if all(isinstance(e, ast.Constant) and isinstance(e.value, str) for e in n.elts):
            return '.strs [' + ', '.join(f'"{e.value}"' for e in n.elts) + ']'
        if all(isinstance(e, ast.List) for e in n.elts):
            rr = []
            for e in n.elts:
                xs = [num(x, text) for x in e.elts]; assert all(t is float for t, _ in xs)
                rr.append('[' + ', '.join(d2(v) for _, v in xs) + ']')
            return '.rows [' + ', '.join(rr) + ']'
        xs = [num(x, text) for x in n.elts]
        if all(t is int for t, _ in xs): return '.ints [' + ', '.join(str(v) for _, v in xs) + ']'
        assert all(t is float for t, _ in xs)
        return '.floats [' + ', '.join(d2(v) for _, v in xs) + ']'
    t, v = num(n, text)
    return f'.int ({v})' if t is int else f'.float {d2(v)}'
for fn in files:
    text = open('/repo/vrml/' + fn).read()
    for c in ast.parse(text).body:
        if not isinstance(c, ast.ClassDef): continue
        classes.append(c.name)
        if fn == files[0]:
            proto = [st.value.value for st in c.body if isinstance(st, ast.Assign) and st.targets[0].id == 'PROTO']
            assert proto == [c.name] and ast.unparse(c.bases[-1]) == 'node.Node', (c.name, proto, [ast.unparse(b) for b in c.bases])
            base.append(f'  "{c.name}"')
        for st in c.body:
            if isinstance(st, ast.Assign) and isinstance(st.value, ast.Call) and isinstance(st.value.func, ast.Attribute):
                f = st.value.func.attr
                a = st.value.args
                if f == 'newField':
                    assert len(a) == 4 and not st.value.keywords and st.targets[0].id == a[0].value, (fn, st.lineno)
                    rows.append(f'  ⟨"{c.name}", "{a[0].value}", "{a[1].value}", {"true" if a[2].value else "false"}, {dflt(a[3], text)}⟩,  -- {fn}:{st.lineno}')
                elif f == 'newEvent':
                    evs.append(f'  ("{c.name}", "{a[0].value}", "{a[1].value}", {"true" if a[2].value else "false"}),')
                else:
                    print('other', fn, st.lineno, f)
def fix(rs):
    r = rs[-1]
    if '  --' in r: i = r.rindex(',  --'); rs[-1] = r[:i] + '  ' + r[i+3:]
    else: rs[-1] = r.rstrip(',')
fix(rows); fix(evs)
out = '''import Verif.Model.Coerce
/-
GENERATED by tools/gen_builtins.py from ''' + ', '.join('/repo/vrml/' + f for f in files) + '''.
Decimal literals are given exactly, as mantissa and number of decimals.
-/
namespace Verif.Builtin
open Verif.Coerce

/-- A default as written in a declaration: `node.NULL`, the callable `list`, or a literal. -/
inductive Dflt
  | null | empty
  | bool (b : Bool) | int (n : Int) | float (q : Int × Nat) | str (s : String)
  | ints (l : List Int) | floats (l : List (Int × Nat)) | strs (l : List String) | rows (l : List (List (Int × Nat)))
  deriving DecidableEq

/-- `name = field.newField(name, ty, exposed, dflt)` in the body of a node class. -/
structure Decl where
  cls : String
  name : String
  ty : String
  exposed : Bool
  dflt : Dflt
  deriving DecidableEq

/-- Every field declared by the built-in node classes. -/
def fieldDecls : List Decl := [
''' + '\n'.join(rows) + '''
]

/-- Every event declared by them: class, name, type, output. -/
def eventDecls : List (String × String × String × Bool) := [
''' + '\n'.join(evs) + '''
]

/-- The node classes of basenodes.py, each a subclass of `node.Node` whose `PROTO` is its name: those that files can use without
declaring them (basenamespaces.py:13-29). -/
def baseNames : List String := [
''' + ',\n'.join(base) + '''
]

end Verif.Builtin
'''
open(os.path.join(root, 'lean/Verif/Model/BuiltinTable.lean'), 'w').write(out)
print(len(classes), 'classes', len(rows), 'fields', len(evs), 'events')
