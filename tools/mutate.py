#!/usr/bin/env python3
"""Seeded-bug runner. usage: mutate.py MUTS.json
MUTS.json: list of {"file","old","new","def","edit","claim"[, "count"]}.
Applies each edit to a scratch copy of /verif/lean in /tmp/mut/lean, rebuilds, records failing theorems in
/verif/seeded/LOG.jsonl (field "tightened" is filled by hand when a mutant survives)."""
import json,subprocess,sys,os,re,shutil
SRC="/verif/lean"; DST=os.environ.get('MUT_DST','/tmp/mut/lean')
def sync():
    os.makedirs('/tmp/mut',exist_ok=True)
    subprocess.run(['rsync','-a','--delete',SRC+'/',DST+'/'],check=False) if shutil.which('rsync') else (shutil.rmtree(DST,ignore_errors=True),subprocess.run(['cp','-a',SRC,DST]))
def declat(path,line):
    src=open(path).read().split('\n')
    ns=[]
    name=None
    for k,l in enumerate(src[:line]):
        m=re.match(r'\s*(?:@\[.*?\]\s*)?(?:private\s+|protected\s+|noncomputable\s+)*(theorem|lemma|def|example|instance|structure|inductive|abbrev)\b\s*([^\s:({\[]*)',l)
        if m: name=(m.group(1),m.group(2) or '(%s at line %d)'%(m.group(1),k+1))
    return name[1] if name else '?'
def main():
    muts=json.load(open(sys.argv[1]))
    out=open('/verif/seeded/LOG.jsonl','a')
    for m in muts:
        p=f"{DST}/Verif/{m['file']}"
        orig=open(f"{SRC}/Verif/{m['file']}").read()
        c=orig.count(m['old'])
        if c!=m.get('count',1):
            print('SKIP count',c,m['def'],m['old']); continue
        open(p,'w').write(orig.replace(m['old'],m['new']))
        r=subprocess.run(['lake','build'],cwd=DST,capture_output=True,text=True)
        txt=r.stdout+r.stderr
        failed=[];mods=[]
        for mm in re.finditer(r'error: (Verif/[\w/]+\.lean):(\d+):',txt):
            n=mm.group(1)[6:-5].replace('/','.')+':'+declat(DST+'/'+mm.group(1),int(mm.group(2)))
            if n not in failed: failed.append(n)
        for mm in re.finditer(r'- (Verif[\w.]*)\s*$',txt,re.M):
            mods.append(mm.group(1))
        rec={'definition':m['def'],'edit':m['edit'],'claim_broken':m['claim'],'theorems_failed':failed,'modules_failed':sorted(set(mods)),'theorems_tightened':m.get('tightened',[])}
        if r.returncode==0: rec['result']='SURVIVED'
        else: rec['result']='killed'
        open(p,'w').write(orig)
        out.write(json.dumps(rec)+'\n'); out.flush()
        print(rec['result'],m['def'],m['edit'],failed[:4],flush=True)
main()
