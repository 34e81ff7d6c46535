#!/usr/bin/env python3
"""Mutation testing of the theorems in a scratch copy.

usage: mutate.py MUTATIONS.json [first [last]]
Environment: MUT_DIR (scratch directory), MUT_TARGETS (modules to build, default all).

Each mutation: {"def": name, "file": path below lean/, "old": text, "new": text, "edit": words,
"breaks": claim that is now false}, or with "edits": a list of {file, old, new} where the
description of a function used in the proofs (an inductive relation) is changed along with the
function, so that it is the properties that fail and not the description; "n" is the number of
occurrences replaced (default 1), "targets" are modules to build instead.  The mutated copy is built; the theorems in
whose text an error is reported are collected.  Results are printed as JSON lines.

A failing lemma `f_ok` only says that the function f and its description differ, or that the
script of its proof no longer fits; it does not tell whether the properties notice.  So, if nothing
but such lemmas fails, their proofs are left out (in the scratch copy only) and the copy is built
again.  The result lists them under "left_out"; "failed" is what fails without them.  This makes
sense only if "edits" changes the description along with the function.  Further lemmas of this kind are named under "mirror"."""
import json, os, re, shutil, subprocess, sys
root=os.path.join(os.path.dirname(os.path.abspath(__file__)),"..","lean")
work=os.environ.get("MUT_DIR","/tmp/mut")+"/lean"
targets=os.environ.get("MUT_TARGETS","").split()
def sync():
    # the last commit, not the working tree
    subprocess.run(f"mkdir -p {work} && cd {work} && rm -rf Verif && git -C {root} archive HEAD . | tar xmf -",shell=True,check=True)
    if not os.path.exists(work+"/.lake"):
        subprocess.run(["cp","-a",root+"/.lake",work+"/.lake"],check=True)
def thm_at(path,line):
    name="?"
    for i,l in enumerate(open(path),1):
        if i>line: break
        m=re.match(r"(?:@\[[^\]]*\] *)?(?:private )?(?:theorem|def|example|instance|abbrev|structure|inductive)\s*(\S*)",l)
        if m: name=m.group(1) if m.group(1) not in ("",":") else "example"
    return name
def build(targets=targets):
    # keep going past failures: build every module separately reports all independent errors
    p=subprocess.run(["bash","-c",'ulimit -t 400; exec lake build "$@"',"lake"]+targets,cwd=work,capture_output=True,text=True)
    out=p.stdout+p.stderr
    bad=[]
    for m in re.finditer(r"error: (Verif/\S+?\.lean):(\d+):\d+",out):
        t=thm_at(os.path.join(work,m.group(1)),int(m.group(2)))
        if t not in bad: bad.append(t)
    # a concrete case that is no longer decided within the time
    for m in re.finditer(r"Building (Verif\S+)[^\n]*\n(?:trace[^\n]*\n)?error: Lean exited with code",out): bad.append(m.group(1)+" (not decided in time)")
    return p.returncode,bad,out
def leave_out(name):
    """Leave out the proof of a theorem of the scratch copy."""
    for d,_,fs in os.walk(work+"/Verif"):
        for g in fs:
            f=os.path.join(d,g)
            if not g.endswith(".lean"): continue
            ls=open(f).read().split("\n")
            for i,l in enumerate(ls):
                if not re.match(r"(?:@\[[^\]]*\] *)?(?:private )?theorem "+re.escape(name)+r"(?![\w.'])",l): continue
                # the statement ends with `:=` outside of brackets, or where the first case begins
                e=i+1
                while e<len(ls) and (ls[e]=="" or ls[e][0]==" "): e+=1
                text="\n".join(ls[i:e]); d=0; end=None
                for k,ch in enumerate(text):
                    if ch in "([{⟨": d+=1
                    elif ch in ")]}⟩": d-=1
                    elif d==0 and text.startswith(":=",k): end=k; break
                    elif d==0 and text.startswith("\n  | ",k): end=k; break
                if end is None: return False
                ls[i:e]=[text[:end].rstrip()+" := sorry",""]
                open(f,"w").write("\n".join(ls)); return True
    return False
muts=json.load(open(sys.argv[1]))
a=int(sys.argv[2]) if len(sys.argv)>2 else 0
b=int(sys.argv[3]) if len(sys.argv)>3 else len(muts)
for k,mu in list(enumerate(muts))[a:b]:
    sync()
    err=None
    for ed in mu.get("edits") or [mu]:
        f=os.path.join(work,ed["file"]); t=open(f).read()
        n=t.count(ed["old"])
        if n!=ed.get("n",1): err=f"old text occurs {n} times: {ed['old'][:60]}"; break
        open(f,"w").write(t.replace(ed["old"],ed["new"]))
    if err:
        print(json.dumps({"k":k,"error":err,"def":mu["def"]}),flush=True); continue
    rc,bad,out=build(mu.get("targets",targets))
    left=[]
    while rc!=0 and bad and len(left)<8 and all((b.endswith("_ok") or b in mu.get("mirror",[])) and b not in left for b in bad) and mu.get("edits"):
        if not all([leave_out(b) for b in bad]): break
        left+=bad
        rc,bad,out=build(mu.get("targets",targets))
    print(json.dumps({"definition":mu["def"],"edit":mu["edit"],"breaks":mu["breaks"],"failed":bad,"survived":rc==0,"tightened":[],**({"left_out":left} if left else {})}),flush=True)
    if rc!=0 and not bad: print(out[-2000:],file=sys.stderr)
sync()
