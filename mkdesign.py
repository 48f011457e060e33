import json
props={}
for l in open('/verif/properties.jsonl'):
    d=json.loads(l); props[d['id']]=d
cl={}
for l in open('/verif/claims.txt'):
    l=l.strip()
    if l.startswith('c('):
        x=eval('('+l[2:-1]+',)'); cl[x[0]]=x
how={}
for l in open('/verif/plan.txt'):
    l=l.rstrip('\n')
    if not l or l[0]=='#': continue
    i,m,h=l.split('|',2); how[i.strip()]=(m.strip(),h.strip())
rows=[]
for i in sorted(props,key=lambda s:int(s[1:])):
    m,h=how.get(i,('?','?'))
    st=cl[i][1] if i in cl else 'open'
    rows.append('| %s | %s | %s | %s | %s |'%(i,props[i]['title'].replace('|','/'),m,h,st))
t=open('/verif/design.in').read().replace('@@TABLE@@','\n'.join(rows))
open('/verif/DESIGN.md','w').write(t)
print([i for i in props if i not in how])
