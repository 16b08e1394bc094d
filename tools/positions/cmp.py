import json,subprocess
cases=json.load(open('/tmp/ctx/cases.json'))
out=subprocess.run(['lake','env','lean','--run','/tmp/ctx/run.lean']+[f'/tmp/ctx/c/{i}' for i in range(len(cases))],cwd='/verif/lean',capture_output=True,text=True)
print(out.stderr[:2000])
res=[json.loads(l) for l in out.stdout.split('\n') if l]
ok=0;bad=0;n=0
def ctx(c): return [c[k] for k in ('start_line','start_column','end_line','end_column','source')]
def diff(m,e,path):
    global n
    if isinstance(m,str): yield path,'err',m;return
    n+=1
    if m.get('_type')!=e['_type']: yield path,'type',m.get('_type'),e['_type'];return
    if e['ctx'] is not None:
        mc=m['_context']; mc=[mc.get('start_line'),mc.get('start_column'),mc.get('end_line'),mc.get('end_column'),mc.get('source')]
        if mc!=e['ctx']: yield path,'ctx',mc,e['ctx']
    if isinstance(e.get('content'),list):
        c=m.get('content',[])
        if len(c)!=len(e['content']): yield path,'len',len(c),len(e['content'])
        for i,(a,b) in enumerate(zip(c,e['content'])): yield from diff(a,b,path+[i])
    if 'labels' in e:
        for k,v in e['labels'].items():
            if k not in m.get('labels',{}): yield path,'label',k
            else: yield from diff(m['labels'][k],v,path+[k])
    if 'value' in e and m.get('value')!=e['value']: yield path,'value',m.get('value'),e['value']
for c,r in zip(cases,res):
    if isinstance(r,dict): print('ERR',c['file'],c['name'],r); bad+=1; continue
    d=[]
    if len(r)!=len(c['exp']): d.append(('len',len(r),len(c['exp'])))
    for i,(a,b) in enumerate(zip(r,c['exp'])): d+=list(diff(a,b,[i]))
    if d: bad+=1; print('DIFF',c['file'],c['name'],d[:4])
    else: ok+=1
print(ok,bad,n)
