import json,sys
def reg(mods,prop,claimline,design,after=None):
    p=open('/verif/lean/Verif.lean').read().rstrip('\n').split('\n')
    for m in mods:
        if 'import '+m not in p: p.append('import '+m)
    open('/verif/lean/Verif.lean','w').write('\n'.join(p)+'\n')
    open('/verif/properties.jsonl','a').write(json.dumps(prop)+'\n')
    open('/verif/tools/claims.py','a').write(claimline+'\n')
    d=open('/verif/DESIGN.md').read().split('\n')
    i=max(k for k,l in enumerate(d) if l.startswith('| `') and k<200 and any(('`%s`'%x) in l for x in ['PC/Export','Slam/Static','Rgbd/Show','Icp/Smooth*','Slam/Smooth*']))
    d.insert(i+1,design)
    open('/verif/DESIGN.md','w').write('\n'.join(d))
