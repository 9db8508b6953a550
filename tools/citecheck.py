"""List model definitions without a comment citing repo lines (or 'Python library' / 'helper')."""
import re,glob,sys,os
R=os.path.join(os.path.dirname(__file__),"..","lean","Verif","Model","*.lean")
tot=0
for f in sorted(glob.glob(R)):
    L=open(f).read().split("\n")
    bad=[]
    for i,l in enumerate(L):
        m=re.match(r"(?:@\[.*\]\s*)?(?:private )?(?:def|structure|inductive|abbrev)\s+(\S+)",l)
        if not m: continue
        j=i-1
        while j>=0 and L[j].startswith("@["): j-=1
        doc=""
        if j>=0 and L[j].rstrip().endswith("-/"):
            k=j
            while k>=0 and not L[k].startswith("/--"): k-=1
            doc=" ".join(L[k:j+1])
        if not re.search(r"\.(py|F90|meta|xsd|c)\b[^a-z]*\d|lines? \d|:\d+|library|[Nn]otation|lines",doc): bad.append(m.group(1))
    tot+=len(bad)
    if bad: print(os.path.basename(f),len(bad),*bad)
print(tot)
