F='RMem/Model.lean'
M('rm-clone-keep',F,'Pass.clone','⟨fun _ _ => false, id','⟨fun _ _ => true, id','C83','clone keeps the tensors')
M('rm-to-copies',F,'Pass.to','⟨fun c _ => c.dev = d, id','⟨fun _ _ => false, id','C83','to always copies the tensors (the sharing claim is false then)')
M('rm-to-keeps',F,'Pass.to','⟨fun c _ => c.dev = d, id','⟨fun _ _ => true, id','C84','to leaves the tensors where they are')
M('rm-to-dev',F,'Pass.to','fun _ => d⟩','fun c => c.dev⟩','C84','copies stay on the old device')
M('rm-detach-copies',F,'Pass.detach','⟨fun _ _ => true, id','⟨fun _ _ => false, id','C83','detach copies')
M('rm-index-copy',F,'Pass.index','fun _ _ => !copy','fun _ _ => true','C83','indexing by a list gives views')
M('rm-index-all',F,'Pass.index','fun _ _ => !copy','fun _ _ => false','C83','slices copy')
M('rm-index-op',F,'Pass.index','fun v => v.step op','fun v => v','C83','indexing forgets to index')
M('rm-permute-op',F,'Pass.permute','fun v => v.step op','fun v => v','C83','change of layout forgets to permute')
M('rm-copies-swap',F,'copies','| 1 => (pb .depth).cell m (o.base .depth)','| 1 => (pb .depth).cell m (o.base .rgb)','C83','the clone has the colour image as depth')
M('rm-copies-pose',F,'copies','(po .poses).cell m ((o.opt .poses).getD ⟨0, []⟩)','(po .poses).cell m ((o.opt .pix).getD ⟨0, []⟩)','C83','the clone has wrong poses')
M('rm-copies-overlap',F,'Opt.idx','| .gnormal => 8','| .gnormal => 7','C83','two maps of the clone share a storage')
M('rm-alloc-short',F,'passAll','(m.alloc 9 (copies','(m.alloc 8 (copies','C83','the last copy lies outside the allocated memory')
M('rm-onedev-K',F,'Args.oneDevice','&& m.dev a.K = m.dev a.rgb &&','&&','C84','intrinsics not checked for their device')
M('rm-onedev-pose',F,'Args.oneDevice','Pcs.okOpt a.poses (fun v => m.dev v = m.dev a.rgb) &&','true &&','C84','poses not checked for their device')
M('rm-onedev-pix',F,'Args.oneDevice','Pcs.okOpt a.pix (fun v => m.dev v = m.dev a.rgb)','true','C84','pixel positions not checked for their device')
M('rm-new-dev',F,'new','let e := d.getD (m.dev a.rgb)','let e := d.getD .cpu','C84','default device is the CPU')
M('rm-new-nomove',F,'new','let p := passAll (fun _ => Pass.to e) (fun _ => Pass.to e) m','let p := passAll (fun _ => Pass.same) (fun _ => Pass.same) m','C84','constructor does not move its tensors')
M('rm-new-copies',F,'new','let p := passAll (fun _ => Pass.to e) (fun _ => Pass.to e) m','let p := passAll (fun _ => ⟨fun _ _ => false, id, fun _ => e⟩) (fun _ => ⟨fun _ _ => false, id, fun _ => e⟩) m','C83','constructor copies its tensors')
M('rm-new-nocheck',F,'new','if !a.oneDevice m then (.error .valueError, m)\n    else','','C84','devices not checked')
M('rm-valid-cache',F,'getValid','(p.2, p.1, { o with valid := some p.2 })','(p.2, p.1, o)','C83','mask not cached')
M('rm-valid-dev',F,'getValid','m.fresh (m.dev (o.base .depth))','m.fresh .cpu','C84','mask made on the CPU')
M('rm-mask-ge',F,'maskOf','> 0)','≥ 0)','C83','mask true at zero depth')
M('rm-store-share',F,'store','(some p.2)','(some (o.base .depth))','C83','the cached map is the depth image')
M('rm-store-dev',F,'store','let p := m.fresh d','let p := m.fresh .cpu','C84','maps are made on the CPU')
M('rm-masked-nomask',F,'masked','| .ok t => (.ok (), store x d t m o)','| .ok _ => (.ok (), m, o)','C83','the masked map is not stored')
M('rm-masked-nodev',F,'masked','if m.dev v ≠ d then (.error .runtimeError, m, o)\n      else','','C84','mask on another device accepted')
M('rm-pix-dev',F,'needPix','(m.dev (o.base .depth))','(m.dev (o.base .rgb))','C84','pixel positions made on the device of the colour image')
M('rm-vertex-dev',F,'computeVertex','if m.dev (o.base .intrinsics) ≠ m.dev pix ∨ m.dev pix ≠ m.dev (o.base .depth) then','if m.dev (o.base .intrinsics) ≠ m.dev pix then','C84','pixel positions on another device than the depth accepted')
M('rm-vertex-dev2',F,'computeVertex','m.dev (o.base .intrinsics) ≠ m.dev pix ∨ m.dev pix','m.dev pix','C84','intrinsics on another device accepted')
M('rm-cached-recompute',F,'cached','| some v => (.ok v, m, o)','| some v => (.ok (o.base .rgb), m, o)','C83','a cached map is answered with the colour image')
M('rm-gvertex-alias',F,'computeGVertex','(.ok (), store .gvertex (m.dev v) (m.read v).img m o)\n  | some','(.ok (), m, { o with opt := Function.update o.opt .gvertex (some v) })\n  | some','C83','without poses the global vertex map is the vertex map itself (no clone)')
M('rm-gvertex-dev',F,'computeGVertex','if m.dev P ≠ m.dev v then (.error .runtimeError, m, o)\n      else','','C84','poses on another device accepted')
M('rm-gnormal-alias',F,'computeGNormal','| none => (.ok (), store .gnormal (m.dev n) (m.read n).img m o)','| none => (.ok (), m, { o with opt := Function.update o.opt .gnormal (some n) })','C83','without poses the global normal map is the normal map itself (no clone)')
M('rm-normal-idx',F,'computeNormal','if o.W < 2 ∨ o.H < 2 then','if o.W < 1 ∨ o.H < 1 then','C83','one-pixel images accepted by the normal map')
M('rm-setbase',F,'Obj.setBase','Function.update o.base b v','Function.update o.base .rgb v','C83','every setter sets the colour image')
M('rm-drop-vertex',F,'Obj.drop','| .pix => o.opt .pix | _ => none','| .pix => o.opt .pix | .vertex => o.opt .vertex | _ => none','C83','the vertex map is kept when depth or intrinsics change')
M('rm-dropg',F,'Obj.dropGlobal','| .normal => o.opt .normal | _ => none','| .normal => o.opt .normal | .gnormal => o.opt .gnormal | _ => none','C83','global normals kept when the poses change')
M('rm-setrgb-check',F,'setRgb','if (m.read v).img.sh ≠ o.rgbShape then (.error .valueError, o) else','','C83','colour setter does not check the shape')
M('rm-setdepth-nodrop',F,'setDepth','(o.setBase .depth v).drop','o.setBase .depth v','C83','depth setter keeps the maps')
M('rm-setk-check',F,'setK','≠ (o.B, 1)','≠ (o.B, o.L)','C83','intrinsics setter wants one matrix per frame')
M('rm-setposes-dropless',F,'setPoses','.dropGlobal','','C83','pose setter keeps the global maps')
M('rm-setposes-check',F,'setPoses','= (o.B, o.L)','= (o.B, 1)','C83','pose setter wants one pose per sequence')
M('rm-rebuild-opt',F,'rebuild','(.ok { c with opt := p.2.2 }, m)','(.ok c, m)','C83','clone drops poses and maps')
M('rm-clone-detach',F,'clone','(passAll (fun _ => Pass.clone) (fun _ => Pass.clone) m o)','(passAll (fun _ => Pass.clone) (fun _ => Pass.detach) m o)','C83','clone shares poses and maps')
M('rm-clone-cf',F,'clone','m o) o.cf','m o) false','C83','the clone is always channels last')
M('rm-detach-opt',F,'detach','base := p.2.1, opt := p.2.2','base := p.2.1','C83','detach copies poses and maps')
M('rm-to-self',F,'toDevice','if !copy && o.dev = d then','if o.dev = d then','C84','to ignores copy')
M('rm-to-noself',F,'toDevice','if !copy && o.dev = d then','if !copy && o.dev ≠ d then','C84','to returns self if the device differs')
M('rm-to-name',F,'toDevice','opt := p.2.2, dev := d','opt := p.2.2','C84','the moved object names its old device')
M('rm-to-opt',F,'toDevice','base := p.2.1, opt := p.2.2, dev','base := p.2.1, dev','C84','poses and maps not moved')
M('rm-to-clone',F,'toDevice','let p := passAll (fun _ => Pass.to d) (fun _ => Pass.to d) m o','let p := passAll (fun _ => Pass.to d) (fun _ => Pass.to d) m c','C83','to moves the tensors of the clone: copy=True copies (the refuted guarantee holds then)')
M('rm-cpu',F,'cpu','(.exact .cpu)','(.exact (.gpu 0))','C84','cpu() moves to the GPU')
M('rm-permbase',F,'permBase','| .intrinsics => Pass.same','| .depth => Pass.same','C83','the depth image is not permuted')
M('rm-permopt',F,'permOpt','| .poses => Pass.same\n  | .pix','| .poses => Pass.same\n  | .normal => Pass.same\n  | .pix','C83','the normal map is not permuted')
M('rm-permpix',F,'permOpt','  | .pix => Pass.same\n','','C83','the pixel positions are permuted too')
M('rm-relayout-cf',F,'relayout','cf := cf, rgbShape','cf := o.cf, rgbShape','C83','the flag is not flipped')
M('rm-relayout-shape',F,'relayout','rgbShape := (p.1.read (p.2.1 .rgb)).img.sh,\n','\n','C83','the remembered shape is stale after a change of layout')
M('rm-tolast-cond',F,'toLast_','if !o.cf then','if o.cf then','C83','to_channels_last_ acts on channels-last objects')
M('rm-tofirst-op',F,'toFirst_','relayout ctg .first true','relayout ctg .last true','C83','to_channels_first_ permutes the wrong way')
M('rm-clonethen',F,'cloneThen','(.ok (.new (f m c).2), (f m c).1)','(.ok (.new (f m o).2), (f m o).1)','C83','to_channels_last changes the tensors of self without copying')
M('rm-tolast-copy',F,'toLast','if !(copy || o.cf) then','if !o.cf then','C83','to_channels_last ignores copy (returns self)')
M('rm-index-K',F,'indexBase','Pass.index (isList a) (.sel0 is)','Pass.index (isList a || isList b) (.sel0 is)','C83','a list of frames copies the intrinsics too (the sharing claim is false then)')
M('rm-index-Ksel',F,'indexBase','(.sel0 is)','(.sel0 js)','C83','intrinsics indexed by frames')
M('rm-getitem-swap',F,'getitem','(fun _ => Pass.index (isList a || isList b) (.sel is js))','(fun _ => Pass.index (isList a || isList b) (.sel js is))','C83','poses and maps indexed the wrong way round')
M('rm-getitem-view',F,'getitem','(fun _ => Pass.index (isList a || isList b) (.sel is js))','(fun _ => Pass.index (isList a) (.sel is js))','C83','a list of frames gives views of poses and maps')
M('rm-getitem-empty',F,'getitem','else if js.length = 0 then (.error .indexError, m)\n        else\n','else\n','C83','an empty selection of frames is accepted')
