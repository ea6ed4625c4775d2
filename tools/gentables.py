#!/usr/bin/env python3
# Generates lean/Verif/Model/Constants.lean from /repo/src/constants.rs (decimal literals kept exactly).
import re
lines=open('/repo/src/constants.rs').read().split('\n')
tabs={};cur=None;start=None;name=None
for no,l in enumerate(lines,1):
    l=re.sub(r'//.*','',l)
    m=re.match(r'pub const (\w+)',l)
    if m: name=m.group(1); tabs[name]=[]; continue
    if re.match(r'\s*&\[\s*$',l): cur=[];start=no;continue
    if cur is not None:
        if re.match(r'\s*\],\s*$',l): tabs[name].append((start,no,cur)); cur=None; continue
        cur+=[x.strip() for x in l.split(',') if x.strip()]
def dec(x):
    neg=x.startswith('-'); x=x.lstrip('-')
    a,_,b=x.partition('.')
    assert (a+b).isdigit(),x
    return ('-' if neg else '')+str(int(a+b)),len(b)
out=['import Verif.Model.F64','',
'/-! # Model of `src/constants.rs`: GENERATED by `tools/gentables.py`, do not edit.','',
'Each literal of the source is kept as an exact decimal `(m, s)`, meaning `m / 10^s`; the double the',
'compiler stores is `F64.ofDec m s`. -/','','namespace HLL','namespace Constants','']
names={'RAW_ESTIMATE_DATA':'raw','BIAS_DATA':'bias'}
for n,ts in tabs.items():
    assert len(ts)==15
    for p,(s,e,vals) in enumerate(ts,4):
        out.append(f'/-- `{n}[{p-4}]`, precision {p} (src/constants.rs:{s}-{e}). -/')
        out.append(f'def {names[n]}{p} : List (ℤ × ℕ) := [')
        ds=[dec(v) for v in vals]
        row=[];acc=[]
        items=[f'({m}, {k})' for m,k in ds]
        line='  '
        for i,it in enumerate(items):
            t=it+(', ' if i<len(items)-1 else ']')
            if len(line)+len(t)>100: out.append(line.rstrip()); line='  '
            line+=t
        out.append(line.rstrip()); out.append('')
for n in tabs:
    out.append(f'/-- `{n}` as decimals, indexed by `precision - 4`. -/')
    out.append(f'def {names[n]}Dec : List (List (ℤ × ℕ)) := ['+', '.join(f'{names[n]}{p}' for p in range(4,19))+']')
    out.append('')
out+=['/-- `RAW_ESTIMATE_DATA` (src/constants.rs:2-1169). -/',
'def RAW_ESTIMATE_DATA : List (List F64) := rawDec.map (·.map fun d => F64.ofDec d.1 d.2)','',
'/-- `BIAS_DATA` (src/constants.rs:1172-4062). -/',
'def BIAS_DATA : List (List F64) := biasDec.map (·.map fun d => F64.ofDec d.1 d.2)','',
'end Constants','end HLL','']
open('/verif/lean/Verif/Model/Constants.lean','w').write('\n'.join(out))
