import os,re,sys
A=sys.argv[1]+'/';B=sys.argv[2]+'/'  # the shipped sheets, the sheets made by the model
def norm(s): return re.sub(r'id="[^"]*"','id=""',s)
ids=lambda s: re.findall(r'id="([^"]*)"',s)
ni=nj=0
def toks(s): return re.findall(r'-?\d+\.\d+|[A-Za-z_#:/"=<>?!]+|\S',norm(s))
isnum=lambda t: re.fullmatch(r'-?\d+\.\d+',t)
same=close=0; bad=[]
for f in sorted(set(os.listdir(A))|set(os.listdir(B))):
    if not os.path.exists(A+f): bad.append((f,'not shipped')); continue
    if not os.path.exists(B+f): bad.append((f,'not made')); continue
    a=open(A+f).read(); b=open(B+f).read()
    for u,v in zip(ids(a),ids(b)):
        ni+=1; nj+=u==v
        if u!=v: print(f,u,v)
    if norm(a)==norm(b): same+=1; continue
    x,y=toks(a),toks(b)
    if len(x)==len(y) and all(p==q or (isnum(p) and isnum(q) and abs(float(p)-float(q))<0.0015) for p,q in zip(x,y)):
        d=sum(p!=q for p,q in zip(x,y)); close+=1; print('close',f,d,'of',len(x)); continue
    i=next((i for i,(p,q) in enumerate(zip(x,y)) if not(p==q or (isnum(p) and isnum(q) and abs(float(p)-float(q))<0.0015))),min(len(x),len(y)))
    bad.append((f,'differs',len(x),len(y),i,' '.join(x[max(0,i-5):i+6]),'|',' '.join(y[max(0,i-5):i+6])))
print('ids',nj,'of',ni); print('same',same,'close',close,'bad',len(bad))
for b in bad: print(b)
