F='Dtype/Model.lean'
M('dt-pix',F,'vertex','(f.pix.getD f32)','(f.pix.getD f.K)','C105','positions made in the dtype of the intrinsics (the fix): float64 intrinsics work')
M('dt-promote',F,'vertex','.ok (promote rays f.depth)','.ok rays','C105','vertex map keeps the dtype of the intrinsics')
M('dt-norm',F,'normal','floatOnly v','.ok v','C105','normals of integer vertices')
M('dt-gv',F,'gvertex','let w ← prod T p v\n    .ok (promote w p)','.ok (promote v p)','C105','poses converted before the product')
M('dt-gn',F,'gnormal','| some p => prod T p v','| some p => .ok (promote p v)','C105','normals promoted instead of raising')
M('dt-append',F,'append','| none, none => .ok ⟨promote m.points n.points','| none, none => .ok ⟨m.points','C105','appended points converted to the dtype of the map')
M('dt-appcol',F,'append','promote m.colors n.colors, some (promote a b)','n.colors, some (promote a b)','C105','colours take the dtype of the appended')
M('dt-act',F,'active','let _ ← prod T f.K x\n      .ok ()','.ok ()','C105','projection converts the intrinsics')
M('dt-actn',F,'active','let _ ← prod T m.normals p\n','','C105','only points are moved (equivalent on these maps)')
M('dt-eye',F,'solve','promote n f32','n','C105','damping matrix in the dtype of A (equivalent for float32 and float64)')
M('dt-eye64',F,'solve','promote n f32','promote n f64','C105','damping matrix float64: float32 registration breaks')
M('dt-iter',F,'iter','let tr1 ← prod T e tr\n    .ok (s1, tr1)','.ok (s1, tr)','C105','transform not updated (same dtype: equivalent)')
M('dt-init',F,'provide','(some f32)','none','C105','provider starts from no transform: float64 works (the fix)')
M('dt-unb',F,'register','if acc = [] then .error .unboundLocal else iters','iters','C105','zero iterations allowed (outside C105: hypothesis)')
M('dt-loc',F,'localize','let tr ← provide T src m.points m.normals seen.accepted\n        prod T tr p','provide T src m.points m.normals seen.accepted','C105','composition promotes (equivalent: both float32)')
M('dt-loc2',F,'localize','active T m pr\n','','C105','active points found without projection: intrinsics of another dtype pass with registration')
M('dt-merge',F,'merge','let fc ← put m.colors r\n','let fc := m.colors\n','C105','colours converted on merge (the fix)')
M('dt-mergec',F,'merge','mix m.colors fc','m.colors','C105','merged colours keep the dtype of the map')
M('dt-mergep',F,'merge','let fp ← put m.points v\n','let fp := v\n','C105','points promoted on merge (equivalent: find_active rejects before)')
M('dt-fusefeat',F,'fuse','append none ⟨v, n, f.rgb, some a⟩','append none ⟨v, n, f.rgb, some f32⟩','C105','first features float32')
M('dt-fusem',F,'fuse','if seen.matched then merge','if seen.inView then merge','C105','merge whenever points are in view')
M('dt-step',F,'step','| .aggregate => aggregate T m live','| .aggregate => aggregate T none live','C105','map replaced instead of extended')
M('dt-prev',F,'forwardFrom','if odom ≠ .gt then some live else none','none','C105','previous frame dropped: registration never runs')
M('dt-poses',F,'forward','⟨m, f32⟩','⟨m, f.poses.getD f32⟩','C105','poses returned in the dtype given')
M('dt-first',F,'forward','some (f.poses.getD f32)','some (f.poses.getD f64)','C105','identity in float64')
M('dt-rank',F,'rank','| f32 => 6 | f64 => 7','| f32 => 7 | f64 => 6','C105','promotion to float32')
