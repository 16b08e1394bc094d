import ast,glob,json,re,textwrap,os
out=[];sk=0
for f in sorted(glob.glob('/repo/tests/parsers/**/*.py',recursive=True)):
    if 'document_parser' in f: kind='doc'
    elif 'text_parser' in f: kind='text'
    else: continue
    t=ast.parse(open(f).read())
    for fn in t.body:
        if not (isinstance(fn,ast.FunctionDef) and fn.name.startswith('test')): continue
        if 'pytest.raises' not in ast.unparse(fn): continue
        env={};envv=[];exp={};src=None
        for st in ast.walk(fn):
            if isinstance(st,ast.Assign) and isinstance(st.targets[0],ast.Name): env[st.targets[0].id]=st.value
            if isinstance(st,ast.Assign) and isinstance(st.targets[0],ast.Subscript) and ast.unparse(st.targets[0].value)=='environment':
                try: envv.append([ast.literal_eval(st.targets[0].slice),ast.literal_eval(st.value)])
                except ValueError: pass
            if isinstance(st,ast.Call) and ast.unparse(st.func)=='Environment.from_dict' and '_mock' not in ast.unparse(st) and 'engine' not in ast.unparse(st):
                try: envv.append(['@',ast.literal_eval(ast.unparse(st.args[0]).replace('TEST_CONTEXT_SOURCE','"test.py"')),ast.literal_eval(st.args[1]) if len(st.args)>1 else None])
                except ValueError as e: print('env',fn.name,ast.unparse(st))
            if isinstance(st,ast.Compare):
                l=ast.unparse(st.left)
                if l=='exc.value.message.text': 
                    try: exp['text']=ast.literal_eval(st.comparators[0])
                    except Exception: exp['text']=eval(ast.unparse(st.comparators[0]),{'TEST_CONTEXT_SOURCE':'test.py'})
                if l.startswith('exc.value.message.context'): exp[l]=list(eval(ast.unparse(st.comparators[0]),{'generate_context':lambda a,b,c,d:(a,b,c,d,'test.py'),'Context':lambda a,b,c,d,source:(a,b,c,d,source)}))
        try: src=textwrap.dedent(ast.literal_eval(env['source']))
        except Exception as e: sk+=1; print('skip',f,fn.name,repr(e)); continue
        m=re.findall(r'mock_open\(read_data=(\w+)',ast.unparse(fn)); files=None
        if m:
            e=env[m[0]]; files=ast.literal_eval(e) if isinstance(e,ast.Constant) else textwrap.dedent(ast.literal_eval(e.args[0])).strip()
        out.append(dict(file=f[len('/repo/tests/parsers/'):],name=fn.name,kind=kind,src=src,env=envv,exp=exp,files=files))
os.makedirs('/tmp/ctx/e',exist_ok=True)
def flat(d,pre=''):
    for k,v in d.items():
        k=pre+k
        if isinstance(v,dict): yield from flat(v,k+'.')
        else: yield k,v
for i,c in enumerate(out):
    open(f'/tmp/ctx/e/{i}.src','w').write(c['src'])
    kv=[]
    for e in c['env']:
        if e[0]=='@': kv+=list(flat(e[1],(e[2]+'.') if e[2] else ''))
        else: kv.append((e[0],e[1]))
    open(f'/tmp/ctx/e/{i}.env','w').write(''.join(f'{k}\t{v}\n' for k,v in kv))
    open(f'/tmp/ctx/e/{i}.file','w').write(c['files'] if c['files'] is not None else 'MISSING')
    open(f'/tmp/ctx/e/{i}.kind','w').write(c['kind'])
json.dump(out,open('/tmp/ctx/errs.json','w'))
print(len(out),sk)
