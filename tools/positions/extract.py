import ast,glob,json,re,textwrap,sys
types={}
for f in glob.glob('/repo/mau/nodes/*.py'):
    t=ast.parse(open(f).read())
    for c in t.body:
        if isinstance(c,ast.ClassDef):
            init=None;ty=None
            for b in c.body:
                if isinstance(b,(ast.Assign,ast.AnnAssign)):
                    tg=b.targets[0] if isinstance(b,ast.Assign) else b.target
                    if getattr(tg,'id',None)=='type': ty=b.value.value
                if isinstance(b,ast.FunctionDef) and b.name=='__init__': init=[a.arg for a in b.args.args[1:]]
            types[c.name]=(ty,init,[getattr(x,'id','') for x in c.bases])
def getinit(c):
    while c in types:
        if types[c][1] is not None: return types[c][1]
        c=types[c][2][0] if types[c][2] else None
    return ['parent','arguments','info']
class Skip(Exception): pass
def conv(e,env):
    if isinstance(e,ast.Name) and e.id in env: return conv(env[e.id],env)
    if isinstance(e,ast.Call):
        n=getattr(e.func,'id',None)
        if n not in types: raise Skip('call '+ast.unparse(e.func))
        names=getinit(n); kw={}
        for a,nm in zip(e.args,names): kw[nm]=a
        for k in e.keywords: kw[k.arg]=k.value
        r={'_type':types[n][0]}
        ctx=None
        if 'info' in kw:
            i=kw['info']
            if isinstance(i,ast.Call) and getattr(i.func,'id','')=='NodeInfo':
                for k in i.keywords:
                    if k.arg=='context':
                        if ast.unparse(k.value.func)=='generate_context':
                            ctx=[ast.literal_eval(a) for a in k.value.args]+['test.py']
                        elif ast.unparse(k.value.func)=='Context':
                            d=dict(zip(['start_line','start_column','end_line','end_column','source'],[None if not isinstance(a,ast.Constant) else a.value for a in k.value.args]))
                            for kk in k.value.keywords: d[kk.arg]=kk.value.value if isinstance(kk.value,ast.Constant) else '?'+ast.unparse(kk.value)
                            ctx=[d.get(x) for x in ['start_line','start_column','end_line','end_column','source']]
                        else: ctx='?'+ast.unparse(k.value)
        r['ctx']=ctx
        if 'content' in kw:
            c=kw['content']
            if isinstance(c,ast.Name) and c.id in env: c=env[c.id]
            r['content']=[conv(x,env) for x in c.elts] if isinstance(c,ast.List) else '?'
        if 'labels' in kw and isinstance(kw['labels'],ast.Dict):
            r['labels']={k.value:conv(v,env) for k,v in zip(kw['labels'].keys,kw['labels'].values)}
        if 'value' in kw and isinstance(kw['value'],ast.Constant): r['value']=kw['value'].value
        return r
    raise Skip(ast.unparse(e)[:60])
out=[];skips=0
for f in sorted(glob.glob('/repo/tests/parsers/document_parser/**/*.py',recursive=True)+glob.glob('/repo/tests/parsers/text_parser/**/*.py',recursive=True)):
    kind='doc' if 'document_parser' in f else 'text'
    t=ast.parse(open(f).read())
    for fn in t.body:
        if not (isinstance(fn,ast.FunctionDef) and fn.name.startswith('test')): continue
        env={};envv=[];src=None;exp=None;why=''
        try:
            for st in ast.walk(fn):
                if isinstance(st,ast.Assign):
                    tg=st.targets[0]
                    if isinstance(tg,ast.Name): env[tg.id]=st.value
                    if isinstance(tg,ast.Subscript) and ast.unparse(tg.value)=='environment':
                        try: envv.append([ast.literal_eval(tg.slice),ast.literal_eval(st.value)])
                        except ValueError: pass
                if isinstance(st,ast.Call) and ast.unparse(st.func)=='Environment.from_dict':
                    d=ast.literal_eval(st.args[0])
                    ns=ast.literal_eval(st.args[1]) if len(st.args)>1 else None
                    envv.append(['@',d,ns])
            calls=[c for c in ast.walk(fn) if isinstance(c,ast.Call)]
            files=None
            cmpn=[c for c in calls if ast.unparse(c.func)=='compare_nodes_sequence']
            for c in cmpn:
                a=c.args[0]
                u=ast.unparse(a)
                if u in('parser.nodes','runner(source).nodes','runner(source, environment).nodes'): pass
                else: continue
                if 'source' not in env: raise Skip('nosrc')
                src=ast.literal_eval(env['source'])
                ex=c.args[1]
                if isinstance(ex,ast.Name): ex=env[ex.id]
                exp=[conv(x,env) for x in ex.elts]
                break
            pat=[]
            m=re.findall(r'mock_open\(read_data=(\w+)',ast.unparse(fn))
            if m:
                e=env[m[0]]
                files=ast.literal_eval(e) if isinstance(e,ast.Constant) else textwrap.dedent(ast.literal_eval(e.args[0])).strip()
        except Skip as e: why=str(e); exp=None
        except Exception as e: why=repr(e); exp=None
        if exp is None: skips+=1; print('skip',f[len('/repo/tests/parsers/'):],fn.name,why,file=sys.stderr); continue
        out.append(dict(file=f[len('/repo/tests/parsers/'):],name=fn.name,kind=kind,src=textwrap.dedent(src),env=envv,exp=exp,files=files))
json.dump(out,open('cases.json','w'))
print(len(out),skips)

import os
os.makedirs('c',exist_ok=True)
def flat(d,pre=''):
    for k,v in d.items():
        k=pre+k
        if isinstance(v,dict): yield from flat(v,k+'.')
        else: yield k,v
for i,c in enumerate(out):
    open(f'c/{i}.src','w').write(c['src'])
    kv=[]
    for e in c['env']:
        if e[0]=='@': kv+=list(flat(e[1],(e[2]+'.') if e[2] else ''))
        else: kv.append((e[0],e[1]))
    open(f'c/{i}.env','w').write(''.join(f'{k}\t{v}\n' for k,v in kv))
    open(f'c/{i}.file','w').write(c['files'] or '')
    open(f'c/{i}.kind','w').write(c['kind'])
