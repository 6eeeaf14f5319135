T='Track/Model.lean'
M('tr-vd',T,'vertex','(kinv f ∪ f.pix ∪ f.depth) ∪ validMask','(kinv f ∪ f.pix) ∪ validMask','C112','depth is detached in the vertex map')
M('tr-vk',T,'kinv','f.K','∅','C112','the inverse intrinsics are built from numbers')
M('tr-vp',T,'vertex','(kinv f ∪ f.pix ∪ f.depth)','(kinv f ∪ f.depth)','C112','pixel positions are detached')
M('tr-n',T,'normal','n ∪ validMask','validMask','C112','normals computed under no_grad')
M('tr-gv',T,'gvertex','(f.pose ∪ vertex f) ∪ f.pose','vertex f','C112','the pose is detached in the global vertex map')
M('tr-gn',T,'gnormal','f.pose ∪ normal f','normal f','C112','the pose is detached in the global normal map')
M('tr-al',T,'alpha','vertex f','∅','C112','the weights are detached')
M('tr-al2',T,'alpha','vertex f','gvertex f','C112','the weights are computed from global vertices')
M('tr-acc',T,'icpIter','if accepted then ⟨one, e ∪ r.T, r.damp⟩ else r','⟨one, e ∪ r.T, r.damp⟩','C112','ICP takes rejected steps')
M('tr-icpT',T,'icpIter','⟨one, e ∪ r.T, r.damp⟩','⟨one, e, r.damp⟩','C112','the old transform is dropped (same set of connections: the source carries it)')
M('tr-icpdet',T,'icpIter','let e := expm xi','let e : Set ι := expm ∅','C112','the step is detached')
M('tr-gdet',T,'gradIter','let e2 := expm (sigmoid ∪ xi)','let e2 : Set ι := expm ∅','C112','the perturbed step is detached')
M('tr-gsig',T,'gradIter','let sigmoid := errdiff','let sigmoid : Set ι := ∅','C112','the weight of the step is detached (same leaves through xi)')
M('tr-gacc',T,'gradIter','⟨e2 ∪ r.src, e2 ∪ r.T, damp⟩','if _accepted then ⟨e2 ∪ r.src, e2 ∪ r.T, damp⟩ else r','C112','gradICP skips rejected steps')
M('tr-gauss',T,'gauss','(n ∪ s, n ∪ (t ∪ s))','(n ∪ s, n ∪ t)','C112','the source is missing from the residual (still connected through A)')
M('tr-gauss2',T,'gauss','(n ∪ s, n ∪ (t ∪ s))','(n ∪ s, n ∪ s)','C112','targets detached')
M('tr-gaussn',T,'gauss','(n ∪ s, n ∪ (t ∪ s))','(s, t ∪ s)','C112','normals detached')
M('tr-solve',T,'solve','(A ∪ damp) ∪ (A ∪ b)','A ∪ damp','C112','the right-hand side is dropped')
M('tr-prov',T,'provide','T ∪ register','register','C112','only the last transform of the batch is returned')
M('tr-locp',T,'localize','provide odom src m.points m.normals seen.accepted ∪ p.pose','provide odom src m.points m.normals seen.accepted','C112','not composed with the previous pose')
M('tr-locl',T,'localize','provide odom src m.points m.normals seen.accepted ∪ p.pose','provide odom src m.points m.normals seen.accepted ∪ live.pose','C112','composed with the frame own pose')
M('tr-locs',T,'localize','gvertex { live with pose := p.pose }','gvertex live','C112','the source is placed at the own pose')
M('tr-locsrc',T,'localize','gvertex { live with pose := p.pose }','gvertex p','C112','the previous frame is registered')
M('tr-locm',T,'localize','src m.points m.normals','src m.points m.points','C112','points for normals (same sets in every run; mem_localize tells them apart)')
M('tr-locgt',T,'localize','  | .gt, _ => live.pose\n','  | .gt, some p => p.pose\n','C112','ground truth keeps the previous pose')
M('tr-apc',T,'append','m.colors ∪ n.colors','n.colors','C112','old colours dropped')
M('tr-apf',T,'append','m.features ∪ n.features⟩','m.features⟩','C112','new features detached')
M('tr-agg',T,'aggregate','⟨gvertex f, gnormal f, f.rgb, ∅⟩','⟨gvertex f, gnormal f, ∅, ∅⟩','C112','colours detached by aggregation')
M('tr-agg2',T,'aggregate','⟨gvertex f, gnormal f, f.rgb, ∅⟩','⟨gvertex f, gnormal f, f.rgb, alpha f⟩','C112','aggregation adds confidence')
M('tr-mf',T,'merge','let c := m.features ∪ fa','let c := m.features','C112','the counts are not updated')
M('tr-mc',T,'merge','(m.features ∪ m.colors) ∪ (fa ∪ fc) ∪ c','m.colors ∪ fc','C112','colours are averaged with constant weights')
M('tr-mc2',T,'merge','(m.features ∪ m.colors) ∪ (fa ∪ fc) ∪ c','(m.features ∪ m.colors) ∪ (fa ∪ fp) ∪ c','C112','points written into colours')
M('tr-mp',T,'merge','⟨(m.features ∪ m.points) ∪ (fa ∪ fp) ∪ c','⟨m.points ∪ fp','C112','points averaged with constant weights')
M('tr-fu',T,'fuse','if matched then merge m f else m','merge m f','C112','merges without any match')
M('tr-fu2',T,'fuse','if matched then merge m f else m','m','C112','never merges')
M('tr-fu3',T,'fuse','f.rgb, alpha f⟩','f.rgb, ∅⟩','C112','appended confidence detached')
M('tr-st',T,'step','{ live with pose := localize odom m live prev seen }','{ live with pose := localize odom m live none seen }','C112','the previous frame is not used')
M('tr-prev',T,'steps','else some live','else some f','C112','the previous frame keeps its own pose')
M('tr-prevdet',T,'steps','else some live','else some { live with pose := ∅ }','C112','poses detached between steps')
M('tr-prevgt',T,'steps','(if odom = .gt then none else some live)','(none)','C112','no previous frame passed: own poses are used')
M('tr-det',T,'detachMap','⟨∅, ∅, ∅, ∅⟩','⟨∅, ∅, ∅, _m.features⟩','C112','features not detached')
M('tr-detf',T,'detachFrame','⟨∅, ∅, ∅, ∅, ∅⟩','⟨∅, ∅, ∅, ∅, _f.pose⟩','C112','poses not detached')
M('tr-fwd',T,'forward','(m, ps.foldl (· ∪ ·) ∅)','(m, ps.headD ∅)','C112','only the first pose is returned')
