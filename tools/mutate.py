#!/usr/bin/env python3
# Seeded-bug runner: applies one edit to a scratch copy of the Lean project, rebuilds, reports the theorems whose proofs fail.
# usage: mutate.py FILE.json   (list of {file, definition, old, new, claim}); appends to seeded/LOG.jsonl
import json,re,subprocess,sys,os,shutil,time
SRC="/verif/lean"; M=os.environ.get("MUT","/tmp/mut")
def sync():
    subprocess.run(["rsync","-a","--delete",SRC+"/",M+"/"]) if shutil.which("rsync") else (shutil.rmtree(M,True),shutil.copytree(SRC,M,symlinks=True))
def enclosing(path,line):
    ls=open(path).read().split("\n")
    for i in range(min(line,len(ls))-1,-1,-1):
        m=re.match(r"(?:private |@\[[^\]]*\] )*(?:theorem|lemma|def|instance|abbrev)\s+(\S+)",ls[i])
        if m: return m.group(1)
        if ls[i].startswith("example"): return f"example@{os.path.basename(path)}:{i+1}"
    return "?"
sync()
muts=json.load(open(sys.argv[1]))
for m in muts:
    p=M+"/Verif/"+m["file"]; s=open(p).read()
    if s.count(m["old"])<1: print("NOT FOUND",m["definition"],m["old"]); continue
    n=m.get("nth",0); parts=s.split(m["old"]); 
    t=m["old"].join(parts[:n+1])+m["new"]+m["old"].join(parts[n+1:])
    open(p,"w").write(t)
    # the build is stopped GRACE seconds after the first error (default: 45)
    grace=int(os.environ.get("GRACE","45")); log=M+".log"; t0=time.time(); first=None; rc=99
    with open(log,"w") as lf:
        pr=subprocess.Popen(["lake","build"],cwd=M,stdout=lf,stderr=subprocess.STDOUT,start_new_session=True)
        while True:
            try: rc=pr.wait(timeout=3); break
            except subprocess.TimeoutExpired: pass
            if first is None and "error:" in open(log).read(): first=time.time()
            if (first and time.time()-first>grace) or time.time()-t0>1800:
                os.killpg(pr.pid,9); pr.wait(); rc=99; break
    out=open(log).read()
    errs=[]
    for f,l in re.findall(r"error: (\S+?\.lean):(\d+):\d+",out):
        e=enclosing(os.path.join(M,f),int(l))
        if e not in errs: errs.append(e)
    # modules that could not be built because an imported one failed
    built=set(re.findall(r"Built (\S+)",out)); failed=[x for x in re.findall(r"^- (\S+)",out,re.M)]
    open(p,"w").write(s)
    rec=dict(definition=m["definition"],edit=m["old"].strip()+"  ->  "+m["new"].strip(),claim=m["claim"],theorems_failed=errs,modules_failed=failed,tightened=m.get("tightened",[]),survived=(rc==0))
    print(("SURVIVED " if rc==0 else "killed   ")+m["definition"],m["claim"],errs[:6],failed[:6],flush=True)
    open("/verif/seeded/LOG.jsonl","a").write(json.dumps(rec)+"\n")
