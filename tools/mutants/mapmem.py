F='Mem/Map.lean'
M('mm-noclone',F,'cloneAppend','''  else match clone m o with
    | (.error e, m, o) => (.error (.pcs e), m, o)
    | (.ok c, m, o) => match append m c new with
      | (.error e, m, _, _) => (.error (.pcs e), m, o)
      | (.ok (), m, c, _) => (.ok (.new c), m, o)''','''  else match append m o new with
    | (.error e, m, o, _) => (.error (.pcs e), m, o)
    | (.ok (), m, c, _) => (.ok (.new c), m, o)''','C98','inplace=False without clone')
M('mm-swap',F,'cloneAppend','  if inplace then match append','  if !inplace then match append','C98','inplace flag inverted')
M('mm-appendold',F,'cloneAppend','(.ok (), m, c, _) => (.ok (.new c), m, o)','(.ok (), m, c, _) => (.ok (.new c), m, c)','C98','the map given is replaced by the extended one')
M('mm-noappend',F,'cloneAppend','(.ok (), m, c, _) => (.ok (.new c), m, o)','(.ok (), m, _, _) => (.ok (.new c), m, o)','C98','the clone before the append is returned')
M('mm-poke',F,'setPads','''match setPad X m.next (m.alloc 1 fun _ => ⟨o.dev, v, [], []⟩) o with''','''match setPad X m.next ⟨m.next + 1, fun q => if some q = o.pad X then ⟨o.dev, v, [], []⟩ else if q = m.next then ⟨o.dev, v, [], []⟩ else m.cell q⟩ o with''','C98','merging writes into the padded tensors of the map')
M('mm-dev',F,'setPads','(m.alloc 1 fun _ => ⟨o.dev, v','(m.alloc 1 fun _ => ⟨.cpu, v','C98','merged attributes are on the CPU')
M('mm-cdev',F,'fuseWithMap','match construct o.dev m','match construct .cpu m','C98','new points are on the CPU')
M('mm-attr',F,'mergeStep','(.normals, mapRows (fun b n r => Fusion.mergeRow (Fusion.cell f b n) (a b n) (Fusion.scatter rows fr.gn b n) r) (valsOf m2 nn))','(.normals, mapRows (fun b n r => Fusion.mergeRow (Fusion.cell f b n) (a b n) (Fusion.scatter rows fr.gn b n) r) (valsOf m1 p))','C98','normals merged into the points')
M('mm-stale',F,'mergeStep','(.features, mapRows (fun b n r => r.map fun c => c + a b n) f)] m o','(.features, mapRows (fun b n r => r.map fun c => c + a b n) f)] m1 o','C98','memory before the other getters')
M('mm-use',F,'fuseWithMap','(if use then rows else [])','rows','C98','mask from stale rows')
M('mm-mask',F,'findActive','(bitsOf m3 k)), m3, o)','(bitsOf m k)), m3, o)','C98','mask read from the memory before it was made')
M('mm-pin',F,'findActive','Fusion.activeRows fr.H fr.W (valsOf m p) (valsOf m2 q)','Fusion.activeRows fr.H fr.W (valsOf m2 q) (valsOf m2 q)','C98','depth test on projected points')
M('mm-read',F,'findSimilar','(valsOf m1 p) (valsOf m nn) distTh','(valsOf m1 p) (valsOf m1 nn) distTh','C98','normals read before they were cached')
M('mm-ds',F,'downsample','Icp.gatherOpt o.B (c.map fun l => l.map m.read) rows','Icp.gatherOpt o.B (n.map fun l => l.map m.read) rows','C98','normals for colours')
M('mm-self',F,'iter','r.get o, if','x.obj, if','C98','the map before the step is carried on')
M('mm-prev',F,'iter','if S.odom.isGt then none else some live','if S.odom.isGt then some live else none','C98','previous frame kept in the wrong case')
M('mm-dev2',F,'iters','⟨(newEmpty m d).1, (newEmpty m d).2','⟨(newEmpty m .cpu).1, (newEmpty m .cpu).2','C98','the map of forward is on the CPU')
M('mm-poses',F,'slamStep','| (.ok r, m, o, live) => (.ok (r, T), m, o, live)','| (.ok r, m, o, live) => (.ok (r, live.poses.getD T), m, o, live)','','equivalent: live.poses is T')
M('mm-aggdev',F,'updateMapAggregate','construct o.dev m','construct (.gpu 0) m','C98','aggregated points on a fixed GPU')
M('mm-range',F,'findBest','(.error (.pcs .indexError), m, o)','(.ok [], m, o)','C98','out of range correspondences silently ignored')
M('mm-map',F,'mapStep','| (.ok fr, live) => match updateMapAggregate m o fr inplace with','| (.ok fr, live) => match updateMapAggregate m o fr true with','C98','ICPSLAM maps in place regardless of the option')
