import json,subprocess,glob,re,hashlib,sys
files=sorted(glob.glob('/repo/tests/e2e/cases/*.mau'))
out=subprocess.run(['lake','env','lean','--run','/tmp/e2e/run.lean']+files,cwd='/verif/lean',capture_output=True,text=True)
print(out.stderr[:2000])
res=[json.loads(l) for l in out.stdout.split('\n') if l]
def strip(o):
    if isinstance(o,dict): return {k:strip(v) for k,v in o.items() if k not in('_context','parent')}
    if isinstance(o,list): return [strip(x) for x in o]
    if isinstance(o,str): return re.sub(r'<<(.*?)>>',lambda m:hashlib.md5(m[1].encode()).hexdigest()[:4],o,flags=re.S)
    return o
# mini yaml
class Y:
    def __init__(s,t): s.L=[l for l in t.split('\n')]; s.i=0
def scalar(v):
    v=v.strip()
    if v=='[]':return []
    if v=='{}':return {}
    if v in('null','~',''):return None
    if v=='true':return True
    if v=='false':return False
    if re.fullmatch(r'-?\d+',v): return int(v)
    if v[0]=="'" : return v[1:-1].replace("''","'")
    if v[0]=='"':
        v=re.sub(r'\\U([0-9A-F]{8})',lambda m:chr(int(m[1],16)),v)
        return json.loads(re.sub(r'\\ *\\ ',' ',re.sub(r'\\x(..)',r'\\u00\1',v)).replace('\\ ',''))
    return v
def parse(lines):
    # lines: list of (indent,text)
    pos=0
    def block(ind):
        nonlocal pos
        if lines[pos][1].startswith('- ') or lines[pos][1]=='-':
            r=[]
            while pos<len(lines) and lines[pos][0]==ind and (lines[pos][1].startswith('- ') or lines[pos][1]=='-'):
                t=lines[pos][1][2:]
                if re.match(r"^('[^']*'|\"[^\"]*\"|[\w\-]+):( |$)",t) or t.startswith('- '):
                    lines[pos]=(ind+2,t); r.append(block(ind+2))
                else:
                    pos+=1
                    while pos<len(lines) and lines[pos][0]>ind: t+=' '+lines[pos][1]; pos+=1
                    r.append(scalar(t))
            return r
        d={}
        while pos<len(lines) and lines[pos][0]==ind and not lines[pos][1].startswith('- '):
            t=lines[pos][1]
            m=re.match(r"^('[^']*'|\"[^\"]*\"|[^\s:]+):( (.*))?$",t)
            if not m: raise Exception('bad '+t)
            k=scalar(m[1]); v=m[3]
            pos+=1
            if v is None:
                if pos<len(lines) and (lines[pos][0]>ind or (lines[pos][0]==ind and lines[pos][1].startswith('- '))):
                    d[k]=block(lines[pos][0])
                else: d[k]=None
            else:
                while pos<len(lines) and lines[pos][0]>ind: v+=' '+lines[pos][1]; pos+=1
                d[k]=scalar(v)
        return d
    return block(0)
ok=0
for f,r in zip(files,res):
    t=open(f[:-3]+'yaml').read()
    lines=[(len(l)-len(l.lstrip()),l.strip()) for l in t.split('\n') if l.strip()]
    if len(lines)==1 and lines[0][1]=='{}': e={}
    else:
        try: e=parse(lines)
        except Exception as ex: print('YERR',f,ex); e=None
    a=strip(r)
    if a==e: ok+=1
    else:
        print('DIFF',f); print(json.dumps(a)[:1500]); print(json.dumps(e)[:1500])
print(ok,len(files))
