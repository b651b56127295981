#!/usr/bin/env python3
"""Seeded-bug experiments.  Usage: mutate.py spec.json [...]  (spec: list of {def, file, old, new, edit, claim, expect})
Works in a scratch directory; /verif is only read, except for seeded/LOG.jsonl, which gets one line per experiment.
The edited model is re-checked file by file; declarations whose proofs break become incomplete in the scratch environment
only, and everything downstream of them is reported through the axioms it depends on."""
import sys,os,re,json,subprocess,shutil,concurrent.futures as cf,time
ROOT="/verif/lean"; 
def mods():
    m={}
    for d,_,fs in os.walk(ROOT+"/Verif"):
        for f in fs:
            if f.endswith(".lean"):
                p=os.path.join(d,f); n=os.path.relpath(p,ROOT)[:-5].replace("/",".")
                m[n]=p
    return m
M=mods()
def imports(src): return re.findall(r"^import (Verif\.[\w.]+)",src,re.M)
SRC={n:open(p).read() for n,p in M.items()}
DEP={n:imports(s) for n,s in SRC.items()}
order=[]
def visit(n):
    if n in order: return
    for d in DEP[n]: visit(d)
    order.append(n)
for n in sorted(M): visit(n)
LP=subprocess.run(["lake","env","printenv","LEAN_PATH"],cwd=ROOT,capture_output=True,text=True).stdout.strip()
def affected(n):
    a={n}
    for k in order:
        if any(d in a for d in DEP[k]): a.add(k)
    return [k for k in order if k in a]
def run(mu,idx):
    n=mu["file"].replace("/",".").removesuffix(".lean")
    if not n.startswith("Verif."): n="Verif."+n
    src=SRC[n]
    if src.count(mu["old"])!=1: return dict(mu,error="old text occurs %d times"%src.count(mu["old"]))
    W="/tmp/mut/%s_%d"%(os.getpid(),idx); shutil.rmtree(W,ignore_errors=True); os.makedirs(W)
    aff=affected(n)
    subprocess.run(["cp","-rs",ROOT+"/.lake/build/lib/lean/",W+"/lib"],check=True)
    for k in aff:
        for x in os.listdir(os.path.dirname(W+"/lib/"+k.replace(".","/"))):
            if x.split(".")[0]==k.split(".")[-1]: os.unlink(os.path.dirname(W+"/lib/"+k.replace(".","/"))+"/"+x) if not os.path.isdir(os.path.dirname(W+"/lib/"+k.replace(".","/"))+"/"+x) else None
    if mu.get("only"):
        need=set()
        def close(k):
            if k in need: return
            need.add(k)
            for d in DEP[k]: close(d)
        for k in aff:
            if any(k.startswith(o) for o in mu["only"]): close(k)
        aff=[k for k in aff if k in need]
    failed=[];survived=[];broken=[];hard=None
    for k in aff:
        s=SRC[k]
        if k==n: s=s.replace(mu["old"],mu["new"])
        f=W+"/src/"+k.replace(".","/")+".lean"; o=W+"/lib/"+k.replace(".","/")+".olean"
        os.makedirs(os.path.dirname(f),exist_ok=True); os.makedirs(os.path.dirname(o),exist_ok=True)
        ns=[]; stack=[]
        for l in s.split("\n"):
            m=re.match(r"namespace (\S+)",l)
            if m: stack.append(m.group(1))
            elif re.match(r"end (\S+)",l) and stack and stack[-1]==l.split()[1]: stack.pop()
            m=re.match(r"theorem (C\d\d\w*)",l)
            if m and k.startswith("Verif.Props"): ns.append((".".join(stack),m.group(1)))
        t="import Lean.Elab.Command\n"+s+"\nopen Lean in\nrun_cmd do writeModule (← getEnv) \"%s\"\n"%o
        for q,x in ns: t+="#print axioms %s.%s\n"%(q,x)
        open(f,"w").write(t)
        e=dict(os.environ,LEAN_PATH=W+"/lib:"+LP)
        try: r=subprocess.run(["lean","-j1","-R",W+"/src","-DmaxHeartbeats=400000",f],capture_output=True,text=True,env=e,cwd=ROOT,timeout=1500)
        except subprocess.TimeoutExpired: hard="timeout in "+k; break
        out=r.stdout+r.stderr
        lines=t.split("\n")
        for m in re.finditer(r":(\d+):\d+: error",out):
            L=int(m.group(1))-1
            while L>=0 and not re.match(r"(private |protected )?(theorem|def|example|instance|structure|inductive)\b",lines[L]): L-=1
            nm=lines[L].split()[1] if L>=0 and len(lines[L].split())>1 else "?"
            if lines[L].startswith("example"): nm="example"
            if (k+":"+nm) not in broken: broken.append(k+":"+nm)
        for q,x in ns:
            m=re.search(r"'[\w.]+\.%s' (depends on axioms: \[([^\]]*)\]|does not depend)"%x,out)
            if not m or (k+":"+x) in broken: failed.append(x)
            elif m.group(2) and "sorryAx" in m.group(2): failed.append(x)
            else: survived.append(x)
        if not os.path.exists(o): hard="no output for "+k+": "+out[:500]; break
    shutil.rmtree(W,ignore_errors=True)
    return dict(mu,failed=failed,survived=survived,broken=broken,hard=hard)
if __name__=="__main__":
    specs=[]
    for a in sys.argv[1:]: specs+=json.load(open(a))
    t=time.time()
    with cf.ThreadPoolExecutor(3) as ex:
        for r in ex.map(lambda x: run(x[1],x[0]),list(enumerate(specs))):
            pr=r.get("claim_id","")
            hit=[x for x in r.get("failed",[]) if x.startswith(tuple(pr.split(",")))]
            ok="KILLED" if hit else "SURVIVED"
            print(ok,r["def"],"|",r["edit"],"|",pr,"|",r.get("error") or r.get("hard") or "", "| failed:",r.get("failed"),"| same-prop survivors:",[x for x in r.get("survived",[]) if x.startswith(tuple(pr.split(",")))],"| broken:",r.get("broken",[])[:6],flush=True)
            if "error" in r or r.get("hard"): continue
            if os.environ.get("NOLOG"): continue
            os.makedirs("/verif/seeded",exist_ok=True)
            with open("/verif/seeded/LOG.jsonl","a") as f:
                f.write(json.dumps({"definition":r["def"],"file":"lean/Verif/"+r["file"].replace("Verif.","").replace(".","/").removesuffix("/lean")+".lean","edit":r["edit"],"claim":r["claim"],"property":pr,"failed":r["failed"],"broken_proofs":r["broken"][:12],"still_proved":[x for x in r["survived"] if x.startswith(tuple(pr.split(",")))],"verdict":ok,"tightened":r.get("tightened",[])})+"\n")
    print("%.0fs"%(time.time()-t))
