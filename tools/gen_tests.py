#!/usr/bin/env python3
"""Translates the project's own unit tests (/repo/test.py, read as text, never run) into Lean examples about the model: lean/Verif/Tests/Repo.lean."""
import ast, math, sys
from fractions import Fraction

SRC = '/repo/test.py'
OUT = '/verif/lean/Verif/Tests/Repo.lean'
SCALE = {'test_large_1d_add': {'n = 1000': 'n = 30'}, 'test_large_1d_sum': {'n = 1000': 'n = 30'}, 'test_large_2d_sum': {'(100, 10)': '(10, 4)', '(100,)': '(10,)', '[10] * 100': '[4] * 10'}, 'test_large_float_mul': {'n = 500': 'n = 20'}}          # test -> {source text: replacement}, for tests too large for the kernel

class Arr:
    def __init__(self, v): self.v = v

class Sym:
    def __init__(self, op, x): self.op, self.x = op, x

def sy(x):
    if isinstance(x, bool): raise ValueError
    if isinstance(x, int): return f"(.i {x})" if x >= 0 else f"(.i ({x}))"
    if isinstance(x, float): x = Fraction(x)
    if isinstance(x, Fraction):
        n = str(x.numerator) if x.numerator >= 0 else f"({x.numerator})"
        return f"(.q {n} {x.denominator})"
    if isinstance(x, Sym): return f"(.f .{x.op} {sy(x.x)})"
    raise ValueError(x)

def nested(x):
    if isinstance(x, (list, tuple)): return "(.node [" + ", ".join(nested(y) for y in x) + "])"
    return f"(.leaf {sy(x)})"

def ints(l): return "[" + ", ".join(str(i) if i >= 0 else f"({i})" for i in l) + "]"
def z(i): return str(i) if i >= 0 else f"({i})"

BIN = {ast.Add: 'add', ast.Sub: 'sub', ast.Mult: 'mul', ast.Div: 'truediv', ast.Pow: 'pow'}

class Tr:
    def __init__(self, name): self.name, self.env, self.steps, self.n = name, {}, [], 0
    def call(self, c):
        self.steps.append(f".call ({c})"); self.n += 1
        return Arr(self.n - 1)
    def plain(self, e):
        def conv(x):
            if isinstance(x, list): return [conv(y) for y in x]
            if isinstance(x, tuple): return tuple(conv(y) for y in x)
            return Fraction(x) if isinstance(x, float) else x
        if isinstance(e, ast.List): return [self.plain(x) for x in e.elts]
        if isinstance(e, ast.UnaryOp) and isinstance(e.op, ast.USub):
            v = self.plain(e.operand)
            return Sym('Neg', v) if isinstance(v, Sym) else -v
        if isinstance(e, ast.BinOp) and isinstance(e.op, ast.Div): return Fraction(self.plain(e.left)) / Fraction(self.plain(e.right))
        if isinstance(e, ast.Call) and isinstance(e.func, ast.Attribute) and isinstance(e.func.value, ast.Name) and e.func.value.id == 'math':
            return Sym(e.func.attr.capitalize(), self.plain(e.args[0]))
        return conv(eval(compile(ast.Expression(e), SRC, 'eval'), {'math': math, **{k: v for k, v in self.env.items() if not isinstance(v, Arr)}}))
    def sub(self, s):
        one = lambda x: "none" if x is None else f"(some {z(self.plain(x))})"
        if isinstance(s, ast.Slice): return f".slice {one(s.lower)} {one(s.upper)} {one(s.step)}"
        v = ast.literal_eval(s)
        return f".int {z(v)}" if isinstance(v, int) else ".other"
    def call_text(self, e):
        """the call that evaluates e, its array arguments evaluated"""
        if isinstance(e, ast.UnaryOp) and isinstance(e.op, ast.USub):
            return f".un .neg {self.expr(e.operand).v}"
        if isinstance(e, ast.BinOp):
            l = self.expr(e.left); r = self.expr(e.right)
            return f".bin .{BIN[type(e.op)]} {l.v} {r.v}"
        if isinstance(e, ast.Subscript):
            a = self.expr(e.value)
            el = e.slice.elts if isinstance(e.slice, ast.Tuple) else [e.slice]
            return f".getitem {a.v} [" + ", ".join(self.sub(s) for s in el) + "]"
        if isinstance(e, ast.Attribute) and e.attr == 'T': return f".T {self.expr(e.value).v}"
        if isinstance(e, ast.Attribute) and e.attr == 'grad': return f".grad {self.expr(e.value).v}"
        f = e.func
        if isinstance(f.value, ast.Name) and f.value.id == 'ndarray':
            A = e.args
            if f.attr == 'array': return f".array {nested(self.plain(A[0]))}"
            if f.attr == 'arange': return f".arange {z(self.plain(A[0]))}"
            if f.attr == 'full': return f".full {ints(self.plain(A[0]))} {sy(self.plain(A[1]))}"
            if f.attr == 'full_like': return f".fullLike {self.expr(A[0]).v} {sy(self.plain(A[1]))}"
            if f.attr == 'ones_like': return f".onesLike {self.expr(A[0]).v}"
            if f.attr == 'zeros_like': return f".zerosLike {self.expr(A[0]).v}"
            raise ValueError(f.attr)
        a = self.expr(f.value).v
        P = [self.plain(x) for x in e.args]
        K = {k.arg: self.plain(k.value) for k in e.keywords}
        m = f.attr
        if m in ('sin', 'cos', 'exp', 'log', 'sqrt'): return f".un .{m} {a}"
        if m == 'sum':
            ax = K.get('axis')
            ax = '.none' if ax is None else f"(.int {z(ax)})" if isinstance(ax, int) else f"(.tuple {ints(ax)})"
            return f".sum {a} {ax} {str(K.get('keepdims', False)).lower()}"
        if m in ('reshape', 'transpose'): return f".{m} {a} {ints(P)}"
        if m == 'contiguous': return f".contiguous {a}"
        if m in ('pad', 'dilate'): return f".{m} {a} " + " ".join(z(p) for p in P)
        if m in ('materialize', 'backward'): return f".{m} {a}"
        raise ValueError(m)
    def expr(self, e):
        if isinstance(e, ast.Name): return self.env[e.id]
        return self.call(self.call_text(e))
    def is_arr(self, e):
        if isinstance(e, ast.Name): return isinstance(self.env.get(e.id), Arr)
        return any(isinstance(n, ast.Name) and (n.id == 'ndarray' or isinstance(self.env.get(n.id), Arr)) for n in ast.walk(e))
    def stmt(self, s):
        if isinstance(s, ast.Assign):
            t = s.targets[0].id
            self.env[t] = self.expr(s.value) if self.is_arr(s.value) else self.plain(s.value)
            return
        if isinstance(s, ast.With):
            inner = s.body[0]
            e = inner.value
            self.steps.append(f".raises ({self.call_text(e)})")
            return
        e = s.value
        if isinstance(e, ast.Call) and isinstance(e.func, ast.Attribute) and isinstance(e.func.value, ast.Name) and e.func.value.id == 'self':
            return self.check(e.func.attr, e.args)
        t = self.call_text(e)
        self.steps.append(f".call ({t})")
    def check(self, kind, A):
        if kind in ('assertEqual', '_assert_list_close'):
            g, want = A
            src = ast.unparse(g)
            if src.startswith('len(materialize'): self.steps.append(f".hist {self.plain(want)}"); return
            if src.startswith('list(materialize'): self.steps.append(f".hits {self.plain(want)}"); return
            path = []
            while isinstance(g, ast.Subscript) and not self.is_handle(g): path.insert(0, self.plain(g.slice)); g = g.value
            if isinstance(g, ast.Call) and g.func.attr == 'tolist':
                a = self.expr(g.func.value)
                self.steps.append(f".list {a.v} {ints(path)} {nested(self.plain(want))}"); return
            assert isinstance(g, ast.Attribute)
            a = self.expr(g.value)
            if g.attr == 'dtype': self.steps.append(f".dtype {a.v} .{want.id}"); return
            w = self.plain(want)
            self.steps.append(f".{g.attr} {a.v} " + (ints(w) if isinstance(w, tuple) else z(w)))
        elif kind == 'assertIs': self.steps.append(f".same {self.expr(A[0]).v} {self.expr(A[1]).v}")
        elif kind in ('assertTrue', 'assertFalse'):
            g = A[0]
            if isinstance(g, ast.Compare): return        # the text of an exception message
            assert g.func.attr == 'is_contiguous'
            self.steps.append(f".contig {self.expr(g.func.value).v} {'true' if kind == 'assertTrue' else 'false'}")
        else: raise ValueError(kind)
    def is_handle(self, g):
        """is the subscript applied to an array (not to the list returned by tolist)?"""
        return 'tolist' not in ast.unparse(g.value)

src = open(SRC).read()
tree = ast.parse(src)
cls = [n for n in tree.body if isinstance(n, ast.ClassDef)][0]
out, names = [], []
for fn in cls.body:
    if not (isinstance(fn, ast.FunctionDef) and fn.name.startswith('test_')): continue
    t = Tr(fn.name)
    t.steps.append(".call .reset")
    body = fn.body
    if fn.name in SCALE:
        txt = '\n'.join(ast.unparse(s) for s in body)
        for a, b in SCALE[fn.name].items():
            assert a in txt, (fn.name, a); txt = txt.replace(a, b)
        body = ast.parse(txt).body
    for s in body:
        t.stmt(s)
    note = '' if fn.name not in SCALE else ' (smaller: ' + ', '.join(f'{b} for {a}' for a, b in SCALE[fn.name].items()) + ')'
    out.append(f"/-- test.py:{fn.lineno}-{fn.end_lineno} `{fn.name}`{note} -/\ndef {fn.name} : List TStep :=\n  [" + ",\n   ".join(t.steps) + "]\n")
    names.append(fn.name)
hdr = '''import Verif.Tests.Runner
/-
Generated by tools/gen_tests.py from /repo/test.py: the project's unit tests, run in the model.  Tests of the model, not proofs of properties.
-/
namespace Whale.Tests
open Whale

'''
body = "\n".join(out)
ex = "\n".join(f"example : passes pyB {n} = true := by decide +kernel" for n in names)
open(OUT, 'w').write(hdr + body + "\n/-! ### all of them pass in the model with the Python backend -/\n\n" + ex + "\n\n/-! ### and every sixth with a CUDA-like backend (all of them do; the others are left out to save time) -/\n\n" + "\n".join(f"example : passes cudaB {n} = true := by decide +kernel" for n in names[1::6]) + "\n\nend Whale.Tests\n")
print(len(names), 'tests')
