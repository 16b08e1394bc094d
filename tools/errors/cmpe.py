
import json,subprocess
cases=json.load(open('/tmp/ctx/errs.json'))
out=subprocess.run(['lake','env','lean','--run','/tmp/ctx/rune.lean']+[f'/tmp/ctx/e/{i}' for i in range(len(cases))],cwd='/verif/lean',capture_output=True,text=True)
print(out.stderr[:3000])
for c,l in zip(cases,out.stdout.split('\n')):
    r=json.loads(l)
    e=c['exp']; good=isinstance(r,dict) and r.get('text')==e.get('text') and all(v==r.get('ctx') for k,v in e.items() if k!='text')
    print('ok ' if good else 'DIFF', len(e), c['file'],c['name'], '' if good else (e,str(r)[:300]))
