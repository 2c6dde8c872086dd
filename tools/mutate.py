#!/usr/bin/env python3
"""Apply each seeded bug of a JSON-lines file to a scratch copy of the model, rebuild, and report which declarations fail.
usage: mutate.py muts.jsonl  (fields: file, definition, old, new, edit, claim; optional tightened)"""
import json, re, subprocess, sys, os, shutil
SRC="/verif/lean"; W=os.environ.get("MUTDIR","/tmp/mut/lean"); LOG="/verif/seeded/LOG.jsonl"
def sync():
    subprocess.run(["rsync","-a","--delete",SRC+"/",W+"/"],check=True) if shutil.which("rsync") else (shutil.rmtree(W,ignore_errors=True), shutil.copytree(SRC,W,symlinks=True))
def decl_at(path,line):
    ls=open(path).read().split("\n"); nm=None
    for i in range(min(line,len(ls))-1,-1,-1):
        m=re.match(r"(?:@\[[^\]]*\]\s*)?(?:private |protected |scoped )*(theorem|lemma|def|instance|example|abbrev|structure|inductive)\b\s*(\S*)",ls[i])
        if m: return (m.group(2) if m.group(1) in("theorem","lemma") else m.group(1)+" "+m.group(2)).strip()
    return "?"
def main():
    muts=[json.loads(l) for l in open(sys.argv[1]) if l.strip()]
    sync()
    for m in muts:
        p=os.path.join(W,"Verif",m["file"]); s=open(p).read()
        if s.count(m["old"])<1: print("NOT FOUND",m); continue
        if m["new"]=="" and m["old"].endswith("\n"):
            s2=re.sub(r"[ \t]*"+re.escape(m["old"]),"",s,count=1)   # drop whole lines
        else: s2=s.replace(m["old"],m["new"],1)
        open(p,"w").write(s2)
        r=subprocess.run(["lake","build"],cwd=W,capture_output=True,text=True)
        fails=[]
        for x in re.finditer(r"error: (?:\./)?(Verif/\S+?\.lean):(\d+):",r.stdout+r.stderr):
            d=decl_at(os.path.join(W,x.group(1)),int(x.group(2)))
            if d not in fails: fails.append(d)
        open(p,"w").write(s)
        v="INVALID" if fails and fails[0].startswith(("def ","structure ")) else "KILLED" if fails else ("SURVIVED" if r.returncode==0 else "ERR "+(r.stdout+r.stderr)[-300:])
        print(v,m["file"],m["definition"],m["edit"],fails[:6],flush=True)
        if v=="INVALID": continue
        with open(LOG+".new","a") as f:
            f.write(json.dumps({"definition":m["definition"],"file":m["file"],"edit":m["edit"],"claim":m["claim"],"theorems_failed":fails,"tightened":m.get("tightened",[]),"result":v.split()[0].lower()})+"\n")
main()
