#!/usr/bin/env python3
"""Seeded bugs: reads a JSON list of {file, old, new, nth?, definition, edit, breaks} from stdin.

For each one copies lean/ to a scratch directory, replaces `old` by `new` in `file` (relative
to lean/), builds and records the theorems whose proofs fail in seeded/LOG.jsonl.
`failed` are the proofs with errors, `failed_with_them` the property theorems of the broken
claim that are proved from a failed helper lemma."""
import os, sys, time, subprocess, pathlib, re, json, shutil
root = pathlib.Path(__file__).resolve().parent.parent
scratch = pathlib.Path(os.environ.get("SCRATCH", "/tmp/scratch"))
def sync():
    scratch.mkdir(exist_ok=True)
    subprocess.run(["rsync","-a","--delete",f"{root}/lean/",f"{scratch}/lean/"],check=True) if shutil.which("rsync") else \
      copy()
def copy():
    # again if the sources were being built meanwhile
    for i in range(6):
        if subprocess.run(f"rm -rf {scratch}/lean && cp -a {root}/lean {scratch}/lean",shell=True).returncode==0: return
        time.sleep(10)
    raise SystemExit("cannot copy")
def theorem_at(f, line):
    name=None
    for i,l in enumerate(f.read_text().splitlines(),1):
        m=re.match(r"(?:@\[.*\] )?(?:private |protected )?(?:theorem|def|example|instance|lemma)\s*(\S+)?",l)
        if m:
            if i>line: break
            name=m.group(1) or "example"
            if l.startswith("example"): name=f"example@{i}"
    return name
def run(file, old, new, nth=0):
    sync()
    f=scratch/"lean"/file
    s=f.read_text()
    parts=s.split(old)
    if len(parts)<2: raise SystemExit(f"pattern not found: {old!r}")
    if len(parts)>2 and nth==0: raise SystemExit(f"pattern occurs {len(parts)-1} times: {old!r}")
    k=max(nth,1)
    f.write_text(old.join(parts[:k])+new+old.join(parts[k:]))
    out=subprocess.run(["lake","build"],cwd=scratch/"lean",capture_output=True,text=True)
    txt=out.stdout+out.stderr
    failed=[];mods=set()
    for m in re.finditer(r"error: (?:\./)*(Verif/\S+?\.lean):(\d+):\d+",txt):
        t=theorem_at(scratch/"lean"/m.group(1),int(m.group(2)))
        mods.add(m.group(1))
        if t and t not in failed: failed.append(t)
    return failed, mods, txt
if __name__=="__main__":
    muts=json.load(sys.stdin)
    for m in muts:
        failed,mods,txt=run(m["file"],m["old"],m["new"],m.get("nth",0))
        print("==",m["definition"],"|",m["edit"]); print("   failed:",failed, flush=True)
        if not failed: print("   !!! SURVIVED" if "error" not in txt else txt[-800:])
        ids=re.findall(r"C\d+",m["breaks"])
        blocked=[] if not failed or any(re.match(r"C\d\d",t) for t in failed) else sorted(
            t for f in (root/"lean/Verif/Props").glob("*.lean")
            for t in re.findall(r"^theorem (C\d\d\w*)",f.read_text(),re.M) if re.match(r"C\d+",t).group() in ids)
        entry={"definition":m["definition"],"edit":m["edit"],"claim":m["breaks"],"failed":failed,"failed_with_them":blocked,"tightened":m.get("tightened",[])}
        if m.get("note"): entry["note"]=m["note"]
        with open(root/"seeded"/"LOG.jsonl","a") as h: h.write(json.dumps(entry,ensure_ascii=False)+"\n")
