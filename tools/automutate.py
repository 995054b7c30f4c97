#!/usr/bin/env python3
"""Random mutation testing of the model.  Usage: automutate.py PER_FILE SEED OUT [FILES...]
Makes small syntactic edits in the definitions of lean/Verif/Model in a scratch copy (/tmp/am/lean) from which all examples are removed, and
rebuilds until a theorem fails.  Edits that do not compile are skipped.  One JSON line per edit goes to OUT."""
import json, os, random, re, subprocess, sys, shutil, signal
SRC="/verif/lean"; MUT="/tmp/am/lean"
per=int(sys.argv[1]); random.seed(int(sys.argv[2])); OUT=sys.argv[3]; only=sys.argv[4:]

def strip(t):
    out=[]; skip=False
    for l in t.split("\n"):
        if l.startswith("example"):
            skip=True; out.append("example : True := trivial"); continue
        if skip and (l.startswith(" ") or l==""): out.append(""); continue
        skip=False; out.append(l)
    return "\n".join(out)

def sync():
    os.makedirs("/tmp/am", exist_ok=True)
    if os.path.exists(MUT): shutil.rmtree(MUT)
    subprocess.run(["cp","-a",SRC,MUT],check=True)
    for d,_,fs in os.walk(f"{MUT}/Verif"):
        for f in fs:
            if f.endswith(".lean"):
                p=f"{d}/{f}"; t=open(p).read(); s=strip(t)
                if s!=t: open(p,"w").write(s)
    r=subprocess.run(["lake","build"],cwd=MUT,capture_output=True,text=True)
    if r.returncode: print(r.stdout[-3000:]); sys.exit(1)

PAIRS=[(r" \+ "," - "),(r" - "," + "),(r" \* "," + "),(r" < "," ≤ "),(r" ≤ "," < "),(r" > "," ≥ "),(r" ≥ "," > "),(r" ≠ "," = "),
 (r" ∧ "," ∨ "),(r" ∨ "," ∧ "),(r" && "," || "),(r" \|\| "," && "),(r"\btrue\b","false"),(r"\bfalse\b","true"),(r"\bi64 \(","id ("),
 (r"nanosMin\b","nanosMax"),(r"nanosMax\b","nanosMin"),(r"countSuccess\b","countError"),(r"countJunk\b","countPanic"),(r"countPanic\b","countError"),
 (r"countValidationError\b","countJunk"),(r"\.head\?",".getLast?"),(r"\.getLast\?",".head?"),(r"\.drop\b",".take"),(r"\.take\b",".drop"),(r"\.1\b",".2"),(r"\.2\b",".1"),
 (r"\btimers\b","eventErrs"),(r"\bnone\b","some default"),(r"\.filter\b",".filterNot"),(r"\.isSome\b",".isNone"),(r"\.isNone\b",".isSome"),(r"\.tail\b",".dropLast"),
 (r"\bmin\b","max"),(r"\bmax\b","min"),(r"\bfloor\b","ceil"),(r" \+\+ \[(\w+)\]"," ++ [] "),(r"¬ ?",""),(r"(\w+) :: (\w+)",r"\2"),(r"\.reverse\b",""),(r"Int\.tdiv","Int.ediv")]
def mutants(path):
    t=open(path).read(); L=t.split("\n"); res=[]; com=False; inlit=False
    for i,l in enumerate(L):
        if com:
            if "-/" in l: com=False
            continue
        if l.lstrip().startswith("/-"):
            if "-/" not in l: com=True
            continue
        if re.match(r"\s*(--|import|open|namespace|end|deriving|structure|inductive|example|theorem|instance|attribute|set_option|variable)",l): continue
        if l.startswith("example"): continue
        body=l; off=0
        m=re.match(r"(private |scoped )?(def|abbrev)\b.*?:=",l)
        if m: off=m.end()
        elif re.match(r"(private |scoped )?(def|abbrev)\b",l): continue
        code=l[off:]
        lits=[(m.start(),m.end()) for m in re.finditer(r'"(?:[^"\\]|\\.)*"',code)]
        def inside(p): return any(a<=p<b for a,b in lits)
        cands=[]
        for pat,rep in PAIRS:
            for m in re.finditer(pat,code):
                if not inside(m.start()): cands.append(code[:m.start()]+m.expand(rep)+code[m.end():])
        if "if " in code:
            for m in re.finditer(r" = ",code):
                if not inside(m.start()): cands.append(code[:m.start()]+" ≠ "+code[m.end():])
            m=re.search(r"\bif (.+?) then (.+?) else (.+)$",code)
            if m and " if " not in m.group(3):
                cands.append(code[:m.start()]+f"if {m.group(1)} then {m.group(3)} else {m.group(2)}"+code[m.end():])
        for m in re.finditer(r"(?<![\w.])(\d+)(?![\w.])",code):
            if not inside(m.start()): cands.append(code[:m.start()]+str(int(m.group(1))+1)+code[m.end():])
        for a,b in lits:
            if b-a>2: cands.append(code[:a+1]+code[a+2:b-1]+code[a+1]+code[b-1:] if b-a>3 else code[:a+1]+"~"+code[b-1:])
        # drop a field update, a statement
        for m in re.finditer(r"with (\w+ := [^,{}]+), ",code): cands.append(code[:m.start()]+"with "+code[m.end():])
        for m in re.finditer(r", (\w+ := [^,{}]+) }",code): cands.append(code[:m.start()]+" }"+code[m.end():])
        if re.match(r"\s+(store|forEach|mergeRefs|cloneRefs|bump)\b",code): cands.append(re.match(r"\s+",code).group(0)+"pure ()")
        for c in cands:
            new=l[:off]+c
            if new!=l: res.append((i,l,new))
    return res

DECL=re.compile(r"^(?:@\[[^\]]*\]\s*)?(?:private |protected |noncomputable )*(theorem|lemma|def|example|instance|abbrev|structure|inductive)\b\s*(\S*)")
def enclosing(path,line):
    L=open(path).read().split("\n")
    for i in range(min(line,len(L))-1,-1,-1):
        m=DECL.match(L[i])
        if m: return m.group(2) if m.group(1)!="example" else "example"
    return "?"

def build():
    p=subprocess.Popen(["lake","build"],cwd=MUT,stdout=subprocess.PIPE,stderr=subprocess.STDOUT,text=True,start_new_session=True)
    weak=[]; strong=[]; oom=False
    for l in p.stdout:
        if "code 137" in l: oom=True
        m=re.match(r"error: (Verif/\S+?\.lean):(\d+):",l)
        if m:
            n=enclosing(f"{MUT}/{m.group(1)}",int(m.group(2)))
            (weak if n.endswith("_false") or n.endswith("witness") else strong).append(n)
            if strong:
                try: os.killpg(p.pid,signal.SIGKILL)
                except ProcessLookupError: pass
                break
    p.wait()
    return strong,weak,oom

sync()
files=only or sorted(os.listdir(f"{MUT}/Verif/Model"))
todo=[]
for f in files:
    c=mutants(f"{MUT}/Verif/Model/{f}"); random.shuffle(c); todo.append((f,c))
done=set()
if os.path.exists(OUT):
    for l in open(OUT):
        d=json.loads(l); done.add((d["file"],d["line"],d["new"]))
for rnd in range(per):
    for f,c in todo:
        p=f"{MUT}/Verif/Model/{f}"; orig=open(p).read()
        while c:
            i,old,new=c.pop()
            if (f,i+1,new) in done: continue
            L=orig.split("\n"); L[i]=new
            open(p,"w").write("\n".join(L))
            mod="Verif.Model."+f[:-5]
            r=subprocess.run(["lake","build",mod],cwd=MUT,capture_output=True,text=True)
            if r.returncode: open(p,"w").write(orig); continue
            s,w,o=build()
            rec={"file":f,"line":i+1,"old":old,"new":new,"def":enclosing(p,i+1),"result":"killed" if s else ("oom" if o else ("weak" if w else "SURVIVED")),"by":s or w}
            open(OUT,"a").write(json.dumps(rec,ensure_ascii=False)+"\n")
            open(p,"w").write(orig)
            break
print("done")
