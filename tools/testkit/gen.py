"""Generates lean/Verif/Testkit/{Parse,Eval}.lean from the records of /repo/test_yup.py (read as text, nothing is run),
and, with a file name, a script that evaluates all records (`lake env lean FILE` in /verif/lean)."""
import ast
import os
import sys

HERE = os.path.dirname(os.path.abspath(__file__))
LEAN = os.path.join(HERE, '../../lean/Verif/Testkit')

kits = {}
for n in ast.parse(open('/repo/test_yup.py').read()).body:
    if isinstance(n, ast.Assign) and isinstance(n.value, ast.List) and isinstance(n.targets[0], ast.Name):
        kits[n.targets[0].id] = [t for t in n.value.elts]

def q(s):
    o='"'
    for ch in s:
        if ch in '"\\': o+='\\'+ch
        elif ch=='\n': o+='\\n'
        elif ch=='\t': o+='\\t'
        elif ch=='\r': o+='\\r'
        else: o+=ch
    return o+'"'
def src(s): return '⟨lit %s, none⟩'%q(s)
def atom(n): # Call ATOM('x')
    assert n.func.id=='ATOM'; return src(n.args[0].value)
def lst(n,f): return '['+', '.join(f(x) for x in n.elts)+']'
def num(n):
    return ast.literal_eval(n)
def var(n):
    r,a=n.args
    if isinstance(r,ast.Call): return 'true','[]',atom(a)
    return 'false',lst(r,atom),atom(a)
def lval(n):
    return '(.many %s)'%lst(n,atom) if isinstance(n,ast.List) else '(.one %s)'%atom(n)
def opt(n): return 'none' if isinstance(n,ast.Constant) and n.value is None else '(some %s)'%node(n)
def node(n):
    if isinstance(n,ast.Constant) and n.value is None: return '.none'
    f=n.func.id; a=n.args
    if f=='TEXT': return '(.text %s)'%lst(a[0],node)
    if f=='PLAIN': return '(.plain %s .none false)'%src(a[0].value)
    if f=='STR': return '(.str %s)'%src(a[0].value)
    if f=='REMARK': return '(.remark %s)'%src(a[0].value)
    if f=='INT': return '(.int (%d))'%num(a[0])
    if f=='FLOAT': return '(.float ⟨lit %s, false, none⟩)'%q(repr(num(a[0])))
    if f=='VAR': return '(.var %s %s %s)'%var(n)
    if f=='APPLY': return '(.apply %s %s %s none)'%(node(a[0]),lst(a[1],node),lst(a[2],lambda t:'(%s, %s)'%(atom(t.elts[0]),node(t.elts[1]))))
    if f=='SET': return '(.set %s %s)'%(lval(a[0]),node(a[1]))
    if f=='LET': return '(.letn %s %s %s)'%(lval(a[0]),node(a[1]),node(a[2]))
    if f=='LIST': return '(.list %s)'%lst(a[0],node)
    if f=='LAMBDA':
        if isinstance(a[0],ast.List):
            return '(.lambda %s %s)'%(lst(a[0],lambda t:'(%s, %s, %s)'%(lst(t.elts[0],atom),atom(t.elts[1]),opt(t.elts[2]))),node(a[1]))
        return '(.lambdaVar %s %s %s %s)'%(var(a[0])+(node(a[1]),))
    if f=='EMIT': return '(.emit %s %s %s %s)'%(var(a[0])+(node(a[1]),))
    if f=='EMBED': return '(.embed %s)'%node(a[0])
    if f=='COND': return '(.cond %s %s %s)'%tuple(map(node,a))
    if f=='INFIX': return '(.infix %s none)'%node(a[0])
    if f=='EVAL': return '(.eval %s none none)'%node(a[0])
    if f=='MACRO': return '(.macro %s %s %s)'%(atom(a[0]),lst(a[1],atom),src(a[2].value))
    if f=='COMMENT': return '.comment'
    if f=='IMPORT_BEGIN': return '.importBegin'
    if f=='IMPORT_END': return '.importEnd'
    raise Exception(f)

def record(kit, i):
    t = kits['t_%s_kit' % kit][i - 1]
    r = t.elts
    name = '%s%02d' % (kit, i)
    doc = lambda what: '/-- %s of record %d of `t_%s_kit`, `test_yup.py:%d-%d`. -/' % (what, i, kit, t.lineno, t.end_lineno)
    return name, [doc('Source'), 'def %sSrc : Str := lit %s' % (name, q(r[1].value)),
                  doc('Tree'), 'def %sTree : Node := %s' % (name, node(r[2]))], [
                  doc('Text'), 'def %sOut : Str := lit %s' % (name, q(r[3].value))]

HEAD = """import Verif.Testkit.Base
set_option maxRecDepth 1000000
/-!
# %s

Generated by `tools/testkit/gen.py`.
-/

namespace Yupp.Testkit
"""

out = [HEAD % 'The records of the parser, `test_yup.py:43-150`']
for i in range(1, 9):
    name, d, _ = record('parse', i)
    out += d + ['', '/-- The model parses the source to the expected tree. -/',
                'theorem %s_tree : parses %sSrc %sTree = true := by decide +kernel' % (name, name, name), '']
open(os.path.join(LEAN, 'Parse.lean'), 'w').write('\n'.join(out + ['end Yupp.Testkit', '']))

out = [HEAD % 'Records of the evaluator, `test_yup.py:155-735`']
for i in (1, 5, 6, 7, 14):
    name, d, o = record('eval', i)
    out += d[:2] + o + ['', '/-- The model translates the source to the expected text. -/',
                'theorem %s_out : output 300 %sSrc = some %sOut := by decide +kernel' % (name, name, name), '']
open(os.path.join(LEAN, 'Eval.lean'), 'w').write('\n'.join(out + ['end Yupp.Testkit', '']))

if len(sys.argv) > 1:
    out = ['import Verif.Testkit.Base', 'open Yupp Testkit', 'namespace All', open(os.path.join(HERE, 'python.txt')).read()]
    for kit, n in (('parse', 8), ('eval', 14)):
        for i in range(1, n + 1):
            name, d, o = record(kit, i)
            out += d + o + ['#eval ("%s tree", parses %sSrc %sTree)' % (name, name, name)]
            if kit == 'eval':
                out += ['#eval ("%s text", run %sSrc == String.ofList %sOut)' % (name, name, name)]
    open(sys.argv[1], 'w').write('\n'.join(out) + '\n')
