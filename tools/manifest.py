#!/usr/bin/env python3
"""Regenerates MANIFEST.json from the theorem names C<nn>_* in lean/Verif/**."""
import json,re,glob,os
root=os.path.dirname(os.path.dirname(os.path.abspath(__file__)))
props=[json.loads(l) for l in open(root+'/properties.jsonl')]
ths={p['id']:[] for p in props}
for f in sorted(glob.glob(root+'/lean/Verif/**/*.lean',recursive=True)):
    ns=[]
    for line in open(f):
        m=re.match(r'namespace\s+(\S+)',line)
        if m: ns.append(m.group(1)); continue
        m=re.match(r'section\b',line)
        if m: ns.append(None); continue
        m=re.match(r'end\b\s*(\S*)',line)
        if m and ns: ns.pop(); continue
        m=re.match(r'(?:@\[[^\]]*\]\s*)?theorem\s+(C\d\d)(_\S+)',line)
        if m: ths.setdefault(m.group(1),[]).append('.'.join([n for n in ns if n]+[m.group(1)+m.group(2)]))
# the theorems C01_methods_* cover C01-C03 (AVR, MSP430: C01-C05), C13_methods_* cover C13-C16
for i in ('C02','C03'): ths[i]+=[t for t in ths['C01'] if '_methods_' in t]
for i in ('C04','C05'): ths[i]+=[t for t in ths['C01'] if t.endswith(('_methods_avr','_methods_msp430'))]
for i in ('C14','C15','C16'): ths[i]+=[t for t in ths['C13'] if '_methods_' in t]
ths['C09']+=[t for t in ths['C13'] if '_methods_' in t]
cfg=json.load(open(root+'/tools/status.json'))
claims=[]
for p in props:
    i=p['id']; c=cfg.get(i,{})
    t=ths.get(i,[])
    st=c.get('status') or ('partial')
    note=c.get('note','')
    if not t and st!='not_applicable': st='partial'; note='no theorem yet'
    claims.append({'property':i,'status':st,'theorems':t,'note':note})
json.dump({'claims':claims},open(root+'/MANIFEST.json','w'),indent=1)
print({c['property']:(c['status'],len(c['theorems'])) for c in claims})
