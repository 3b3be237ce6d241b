"""Translates a source of /repo/eg with the model and compares the text with the one in the repository:
    run.py SOURCE EXPECTED [c|py [CONFIG [PASSAGE]]]      run.py --all
Python expressions and functions that the model leaves open are asked for (`REQ` lines) and computed here; nothing of the
project is run. The title is not compared: it tells the version and the date of the translation."""
import subprocess,sys,ast,json,os,math,operator,zlib,tempfile
HERE=os.path.dirname(os.path.abspath(__file__))
ALL=[l.split() for l in '''eg/hello.yu-c eg/hello.c
eg/unfold.yu-c eg/unfold.c
eg/argv.yu-c eg/argv.c
eg/dict.yu-c eg/dict.c
eg/gpio.yu-c eg/gpio.c
eg/coro.yu-c eg/coro.c
eg/ulam.yu-c eg/ulam.c
eg/passage.yu-c eg/passage-a.c c {} 0
eg/passage.yu-c eg/passage-b.c c {} 1
eg/passage.yu-c eg/passage-c.c c {} 2
eg/dict.yu-py eg/dict.py py
eg/coding.yu-py eg/coding.py py
eg/coro.py eg/coro.yugen.py py
eg/switch.py eg/switch.yugen.py py
eg/app/main.yu-c eg/app/main.c
eg/glance/glance.yu-cpp eg/glance/glance.cpp
eg/glance/glance.yu-py eg/glance/glance.py py'''.split('\n')]
if sys.argv[1]=='--all':
    for l in ALL:
        subprocess.run([sys.executable,__file__,'/repo/'+l[0],'/repo/'+l[1]]+l[2:])
    sys.exit()
TMP=tempfile.mkdtemp()
src_path,out_path,pyout=sys.argv[1],sys.argv[2],(len(sys.argv)>3 and sys.argv[3]=='py')
cfg=sys.argv[4] if len(sys.argv)>4 else '{}'
passage=sys.argv[5] if len(sys.argv)>5 else '0'
def q(s):
    o='"'
    for ch in s:
        if ch in '"\\': o+='\\'+ch
        elif ch=='\n': o+='\\n'
        elif ch=='\t': o+='\\t'
        elif ch=='\r': o+='\\r'
        else: o+=ch
    return o+'"'
enc='cp1252' if 'coding.' in src_path else 'utf8'
text=open(src_path,encoding=enc,newline='').read()
libs={}
for d in ['/repo/lib',os.path.dirname(src_path)]:
    for f in os.listdir(d):
        if f.endswith(('.yu','.yu-h','.h')): libs[f]=open(os.path.join(d,f),encoding='utf8',newline='').read()
name=os.path.basename(src_path); oname=os.path.basename(out_path)
TITLE_C=None
tbl={}
def node(v):
    if v is None: return '.none'
    if isinstance(v,bool): return '(.bool %s)'%str(v).lower()
    if isinstance(v,int): return '(.int (%d))'%v
    if isinstance(v,float): return '(.float ⟨lit %s, %s, some (%d)⟩)'%(q(str(v)),str(v==0).lower(),int(v))
    if isinstance(v,str): return '(.pstr (lit %s))'%q(v)
    if isinstance(v,(list,tuple)): return '(.list [%s])'%', '.join(map(node,v))
    if isinstance(v,dict): return '(.plain ⟨lit %s, none⟩ .no false)'%q(v['plain'])
    raise Exception(repr(v))
def answer(key):
    r=json.loads(key)
    if r[0]=='parse':
        return '(.list [%s])'%', '.join(node(n) for n in sorted({x.id for x in ast.walk(ast.parse(r[1],mode='eval')) if isinstance(x,ast.Name)}))
    if r[0]=='eval':
        g=dict(vars(math)); g['sys']=sys
        return node(eval(r[1],g,{k:un(v) for k,v in r[2]}))
    f,args=r[1],[un(a) for a in r[2]]
    if f in('__FILE__',): return node('"%s"'%name)
    if f=='__OUTPUT_FILE__': return node('"%s"'%oname)
    if f=='__MODULE_NAME__': return '(.atom ⟨lit %s, none⟩)'%q(name.split('.')[0])
    if f=='__TITLE__':
        return node({'plain':'@TITLE@'})
    if f=='crc32':
        return node(zlib.crc32(bytes(args[0],'utf8')) & 0xffffffff)
    if f=='print': return node(None)
    fn=getattr(math,f,None) or getattr(operator,{'mod':'mod','div':'truediv'}.get(f,f),None) or {'round':round}.get(f)
    return node(fn(*args))
def un(a):
    k,v=a
    if k=='i': return int(v)
    if k=='f': return float(v)
    if k=='b': return v=='true'
    if k=='s': return v
    if k=='l': return [un(x) for x in v]
    raise Exception(a)
HEAD=open(HERE + '/run.lean.txt').read()
for it in range(200):
    L=HEAD
    L=L.replace('@SRC@',q(text)).replace('@NAME@',q(name)).replace('@PY@','true' if pyout else 'false').replace('@CFG@',cfg).replace('@PASSAGE@',passage).replace('@OUT@',TMP+'/out')
    L=L.replace('@LIBS@','['+',\n'.join('(lit %s, lit %s)'%(q(k),q(v)) for k,v in libs.items())+']')
    L=L.replace('@TBL@','['+',\n'.join('(%s, %s)'%(q(k),v) for k,v in tbl.items())+']')
    open(TMP+'/d.lean','w').write(L)
    p=subprocess.run(['lake','env','lean','--run',TMP+'/d.lean'],cwd=HERE+'/../../lean',capture_output=True,text=True)
    reqs=[l[4:] for l in p.stderr.split('\n') if l.startswith('REQ\t')]
    new=[r for r in reqs if r not in tbl]
    err=[l for l in (p.stdout+p.stderr).split('\n') if 'error' in l]
    if err: print(err[:5])
    if not new: break
    for r in new: tbl[r]=answer(r)
res=open(TMP+'/out').read()
open(TMP+'/res','w').write(res)
exp=open(out_path,encoding=enc,newline='').read()
if '@TITLE@' in res:
    import re
    pre,post=res.split('@TITLE@',1)
    ok=exp.startswith(pre) and exp.endswith(post)
    print(name,'OK with title %r'%exp[len(pre):len(exp)-len(post)] if ok else 'DIFF')
    if not ok:
        open(TMP+'/exp','w').write(exp); subprocess.run(['diff',TMP+'/res',TMP+'/exp'])
else:
    print(name,res==exp)
    if res!=exp:
        open(TMP+'/exp','w').write(exp); subprocess.run(['diff',TMP+'/res',TMP+'/exp'])
