#!/usr/bin/env python3
"""Mutation testing of the model.  Usage: mutate.py FILE.json
FILE.json: list of {"file","old","new","definition","edit","claim","tightened"(optional)}; every edit is applied to a scratch
copy (/tmp/mut), rebuilt, and one line is appended to /verif/seeded/LOG.jsonl."""
import json, os, re, subprocess, sys, shutil
SRC="/verif/lean"; MUT="/tmp/mut/lean"; LOG="/verif/seeded/LOG.jsonl"

def stripped(text):
    """drop the examples of a model file, so that a mutant reaches the theorems"""
    out=[]; skip=False
    for l in text.split("\n"):
        if l.startswith("example"):
            if out and out[-1].rstrip().endswith("-/"):
                while not out[-1].startswith("/-"): out.pop()
                out.pop()
            skip=True; continue
        if skip and (l.startswith(" ") or l==""): continue
        skip=False; out.append(l)
    return "\n".join(out)+"\n"

def sync():
    """make the copy equal to the source (but for the examples of the model), keeping what has been built"""
    os.makedirs("/tmp/mut", exist_ok=True)
    if not os.path.exists(MUT): subprocess.run(["cp","-a",SRC,MUT],check=True)
    have=set()
    for d,_,fs in os.walk(f"{SRC}/Verif"):
        for f in fs:
            p=os.path.join(d,f); q=MUT+p[len(SRC):]; have.add(q)
            t=open(p).read()
            if d.endswith("/Model") and f!="Unmarshal.lean": t=stripped(t)  # without the examples of Unmarshal, the kernel takes another way through one check and does not come to its end
            os.makedirs(os.path.dirname(q),exist_ok=True)
            if not os.path.exists(q) or open(q).read()!=t: open(q,"w").write(t)
    for d,_,fs in os.walk(f"{MUT}/Verif"):
        for f in fs:
            if os.path.join(d,f) not in have: os.remove(os.path.join(d,f))
    shutil.copy(f"{SRC}/Verif.lean",f"{MUT}/Verif.lean")

def deps():
    names=[t for c in json.load(open("/verif/MANIFEST.json"))["claims"] for t in c["theorems"]]
    names=list(dict.fromkeys(names))
    src="import Verif\nopen Lean\n" + r'''
run_cmd do
  let env ← getEnv
  let own (n : Name) : Bool := match env.getModuleIdxFor? n with
    | some i => (`Verif).isPrefixOf (env.header.moduleNames[i.toNat]!)
    | none => false
  let mut out : Array String := #[]
  for (n, c) in env.constants.map₁.toList do
    if own n then
      let v := match c.value? (allowOpaque := true) with
        | some v => v.getUsedConstants
        | none => #[]
      out := out.push s!"DEP {n}\t{(c.type.getUsedConstants ++ v).toList.filter own |>.map toString |> String.intercalate "\t"}"
  IO.FS.writeFile "/tmp/mut/deps.txt" ("\n".intercalate out.toList)
'''
    open("/tmp/mut/deps.lean","w").write(src)
    subprocess.run(["lake","build"],cwd=SRC,check=True,capture_output=True)
    r=subprocess.run(["lake","env","lean","/tmp/mut/deps.lean"],cwd=SRC,capture_output=True,text=True)
    if r.returncode!=0: print(r.stdout[:2000]); sys.exit(1)
    G={}
    for l in open("/tmp/mut/deps.txt"):
        x=l.rstrip("\n").split("\t"); G[x[0][4:]]=[y for y in x[1:] if y]
    D={}
    for t in names:
        seen=set(); todo=[t]
        while todo:
            n=todo.pop()
            if n in seen: continue
            seen.add(n); todo+=G.get(n,[])
        D[t]=seen
    if not D: print("no deps!")
    return D

DECL=re.compile(r"^(?:@\[[^\]]*\]\s*)?(?:private |protected |noncomputable )*(theorem|lemma|def|example|instance|abbrev|structure|inductive)\b\s*(\S*)")
def enclosing(path,line):
    L=open(path).read().split("\n")
    for i in range(min(line,len(L))-1,-1,-1):
        m=DECL.match(L[i])
        if m: return m.group(2) if m.group(1)!="example" else f"example@{os.path.basename(path)}:{i+1}"
    return "?"

def main():
    specs=json.load(open(sys.argv[1]))
    for s in specs:
        t=open(f"{SRC}/{s['file']}").read()
        if t.count(s["old"])!=1: print("BAD COUNT",t.count(s["old"]),s["definition"],s["old"]); sys.exit(1)
    os.makedirs("/tmp/mut",exist_ok=True); D=deps(); sync()
    r=subprocess.run(["lake","build"],cwd=MUT,capture_output=True,text=True)
    if r.returncode!=0: print("the copy does not build",(r.stdout+r.stderr)[-2000:]); sys.exit(1)
    for s in specs:
        p=f"{MUT}/{s['file']}"
        orig=open(p).read()
        open(p,"w").write(orig.replace(s["old"],s["new"]))
        r=subprocess.run(["lake","build"],cwd=MUT,capture_output=True,text=True)
        out=r.stdout+r.stderr
        failed=[]
        for m in re.finditer(r"error: (Verif/\S+?\.lean):(\d+):",out):
            n=enclosing(f"{MUT}/{m.group(1)}",int(m.group(2)))
            if n not in failed: failed.append(n)
        if not failed and r.returncode!=0:
            # a check that evaluates differently may exhaust the memory instead of reporting an error
            failed=[f"(out of memory checking {m.group(1)})" for m in re.finditer(r"^- (Verif\.\S+)$",out,re.M)] if "code 137" in out else []
        def hit(ds):
            return any(d==f or d.endswith("."+f) for d in ds for f in failed)
        broken=sorted(t for t,ds in D.items() if t in failed or hit(ds))
        rec={"definition":s["definition"],"file":s["file"],"edit":s["edit"],"claim_broken":s["claim"],
             "theorems_failed":failed,"property_theorems_no_longer_proved":broken,"theorems_tightened":s.get("tightened",[])}
        if r.returncode==0: rec["survived"]=True
        elif not failed:
            print("INCONCLUSIVE "+s["definition"]+" | "+s["edit"]); print(out[-800:]); open(p,"w").write(orig); continue
        if s.get("note"): rec["note"]=s["note"]
        open(LOG,"a").write(json.dumps(rec)+"\n")
        print(("SURVIVED " if r.returncode==0 else "killed   ")+s["definition"]+" | "+s["edit"]+" | "+",".join(failed[:6])+" => "+",".join(broken))
        if any(f=="?" for f in failed) : print(out[-1500:])
        open(p,"w").write(orig)
main()
