F='Rgbd/Model.lean'
M('rgbd-new-chans',F,'new','if rgb.sh.chans cf ≠ 3 then','if rgb.sh.chans cf < 3 then','C43','RGBA images accepted')
M('rgbd-new-depth',F,'new','depth.sh ≠ rgb.sh.setC cf 1','depth.sh.d0 ≠ rgb.sh.d0','C43','depth image size not checked')
M('rgbd-new-K',F,'new','(K.d0, K.d1) ≠ (rgb.sh.d0, 1)','(K.d0) ≠ (rgb.sh.d0)','C43','time dimension of the intrinsics not checked')
M('rgbd-new-poses',F,'new','(p.d0, p.d1) = (rgb.sh.d0, rgb.sh.d1)','(p.d0) = (rgb.sh.d0)','C43','pose sequence length not checked')
M('rgbd-new-pix',F,'new','else if !Pcs.okOpt pix (fun p => decide (p.sh = rgb.sh.pixShape cf)) then .error .valueError\n  ','','C43','pixel positions not checked')
M('rgbd-new-HW',F,'new','if cf then rgb.sh.d3 else rgb.sh.d2, if cf then rgb.sh.d4 else rgb.sh.d3⟩','if cf then rgb.sh.d4 else rgb.sh.d3, if cf then rgb.sh.d3 else rgb.sh.d2⟩','C43','height and width swapped')
M('rgbd-valid-ge',F,'getValid','s.depth.at\' i j k l n > 0','s.depth.at\' i j k l n ≥ 0','C43','zero depth counted as valid')
M('rgbd-valid-ne',F,'getValid','s.depth.at\' i j k l n > 0','s.depth.at\' i j k l n ≠ 0','C43','negative depth counted as valid')
M('rgbd-mesh-swap',F,'meshPix','| 0 => (Geom.meshgrid H W false h w).2\n    | 1 => (Geom.meshgrid H W false h w).1','| 0 => (Geom.meshgrid H W false h w).1\n    | 1 => (Geom.meshgrid H W false h w).2','C43','row and column swapped')
M('rgbd-rays-K',F,'rays','(K.at\' b 0)','(K.at\' 0 0)','C43','intrinsics of the first batch element used for all')
M('rgbd-rays-inv',F,'rays','(Geom.inverseIntrinsics4 eps (K.at\' b 0)).R','(K.at\' b 0).R','C43','intrinsics not inverted')
M('rgbd-rays-cf',F,'rays','mk5 cf B L H W 3','mk5 (!cf) B L H W 3','C43','wrong layout')
M('rgbd-vertex-mask',F,'computeVertex','| .ok v => (.ok (), { s with vertex := some v })','| .ok _ => (.ok (), s)','C43 C44','result of the masking is dropped')
M('rgbd-gvertex-t',F,'computeGVertex','addT s.cf P (rotMap s.cf v.sh P v)','rotMap s.cf v.sh P v','C43','translation dropped')
M('rgbd-gvertex-order',F,'computeGVertex','addT s.cf P (rotMap s.cf v.sh P v)','rotMap s.cf v.sh P (addT s.cf P v)','C43','translated before the rotation')
M('rgbd-gvertex-mask',F,'computeGVertex','      | .ok g => (.ok (), { s with gvertex := some g })','      | .ok _ => (.ok (), s)','C43','missing depths get the camera centre')
M('rgbd-rot-time',F,'rotMap','if cf then Pcs.comp ((P.at\' b l).R','if cf then Pcs.comp ((P.at\' b 0).R','C43','channels first: pose of the first frame used for all')
M('rgbd-rot-trans',F,'rotMap','else Pcs.comp ((P.at\' b l).R.mulVec','else Pcs.comp ((P.at\' b l).R.transpose.mulVec','C43','rotation transposed (channels last)')
M('rgbd-addT-axis',F,'addT','if cf then i else k','if cf then k else i','C43','translation added along the wrong axis')
M('rgbd-fdiff-last',F,'fdiff','if i = n - 1 then n - 2 else i','i','C43','last column reads outside the image')
M('rgbd-fdiff-first',F,'fdiff','if i = n - 1 then n - 2 else i','if i = 0 then 0 else i - 1','C43','backward differences')
M('rgbd-normal-order',F,'rawNormal','let n := dh.cross dv','let n := dv.cross dh','C43','normals point away')
M('rgbd-normal-unit',F,'rawNormal','⟨n.x / r, n.y / r, n.z / r⟩','n','C43','normals not normalised')
M('rgbd-normal-axis',F,'rawNormal','let dh := fdiff W (fun w => px3 cf v b l h w) w','let dh := fdiff H (fun w => px3 cf v b l h w) w','C43','height used for the horizontal border')
M('rgbd-normal-zero',F,'rawNormal','if nrm n = 0 then 1 else nrm n','nrm n','','exact arithmetic: x / 0 = 0 in Lean, so the guard is invisible in the model (see DESIGN)')
M('rgbd-normal-mask',F,'computeNormal','      | .ok n => (.ok (), { s with normal := some n })','      | .ok _ => (.ok (), s)','C43','normals of missing depths kept')
M('rgbd-gnormal-t',F,'computeGNormal','some (rotMap s.cf n.sh P n)','some (addT s.cf P (rotMap s.cf n.sh P n))','C43','normals translated')
M('rgbd-gnormal-none',F,'computeGNormal','some (rotMap s.cf n.sh P n)','some n','C43','global normals not rotated')
M('rgbd-getgv',F,'getGVertex','(s.gvertex.getD s.rgb)','(s.vertex.getD s.rgb)','C43','global getter returns the local map')
M('rgbd-setrgb-check',F,'setRgb','if v.sh ≠ s.rgbShape then (.error .valueError, s) else (.ok (), { s with rgb := v })','(.ok (), { s with rgb := v })','C44','shape not checked on assignment')
M('rgbd-setdepth-v',F,'setDepth','{ s with depth := v, vertex := none,','{ s with depth := v,','C44','vertex map stale after assigning depth')
M('rgbd-setdepth-gn',F,'setDepth','gvertex := none, gnormal := none })','gvertex := none })','C44','global normals stale after assigning depth')
M('rgbd-setK-n',F,'setK','K := v, vertex := none, normal := none,','K := v, vertex := none,','C44','normals stale after assigning intrinsics')
M('rgbd-setK-gv',F,'setK','gvertex := none, gnormal := none })','gnormal := none })','C44','global vertices stale after assigning intrinsics')
M('rgbd-setK-dim',F,'setK','(v.d0, v.d1) ≠ (s.B, 1)','(v.d0, v.d1) ≠ (s.B, s.L)','C44','wrong shape expected')
M('rgbd-setposes-gv',F,'setPoses','poses := v, gvertex := none, gnormal := none','poses := v, gnormal := none','C44','global vertices stale after assigning poses')
M('rgbd-setposes-gn',F,'setPoses','poses := v, gvertex := none, gnormal := none','poses := v, gvertex := none','C44','global normals stale after assigning poses')
M('rgbd-setposes-check',F,'setPoses','(p.d0, p.d1) = (s.B, s.L)','(p.d0, p.d1) = (s.B, 1)','C44','pose sequence of the wrong length accepted')
M('rgbd-clone-poses',F,'clone','poses := s.poses, pix','poses := none, pix','C44 C45','poses not cloned')
M('rgbd-clone-swap',F,'clone','vertex := s.vertex, normal := s.normal','vertex := s.gvertex, normal := s.normal','C44 C45','local vertex map cloned from the global one')
M('rgbd-clone-cf',F,'clone','new s.rgb s.depth s.K none s.cf none','new s.rgb s.depth s.K none false none','C44 C45','clone forgets the layout')
M('rgbd-perm-wrong',F,'perm01342','⟨⟨t.sh.d0, t.sh.d1, t.sh.d3, t.sh.d4, t.sh.d2⟩, fun b l h w c => t.at\' b l c h w⟩','⟨⟨t.sh.d0, t.sh.d1, t.sh.d4, t.sh.d3, t.sh.d2⟩, fun b l h w c => t.at\' b l c w h⟩','C45','permute(0,1,4,3,2): image transposed')
M('rgbd-perm2-wrong',F,'perm01423','⟨⟨t.sh.d0, t.sh.d1, t.sh.d4, t.sh.d2, t.sh.d3⟩, fun b l c h w => t.at\' b l h w c⟩','⟨⟨t.sh.d0, t.sh.d1, t.sh.d3, t.sh.d4, t.sh.d2⟩, fun b l c h w => t.at\' b l w c h⟩','C45','the same permutation used in both directions')
M('rgbd-last-depth',F,'toLast_','depth := perm01342 s.depth,','depth := s.depth,','C45 C44','depth not permuted')
M('rgbd-last-normal',F,'toLast_','normal := s.normal.map perm01342,','normal := s.normal,','C45 C44','cached normals not permuted')
M('rgbd-last-flag',F,'toLast_','gnormal := s.gnormal.map perm01342, cf := false','gnormal := s.gnormal.map perm01342','C45','layout flag not updated')
M('rgbd-last-shape',F,'toLast_','rgbShape := (perm01342 s.rgb).sh','rgbShape := s.rgbShape','C44 C45','rgb shape not updated')
M('rgbd-first-flag',F,'toFirst_','if s.cf then s','if !s.cf then s','C45','early return inverted')
M('rgbd-first-gv',F,'toFirst_','gvertex := s.gvertex.map perm01423','gvertex := s.gvertex','C45 C44','cached global vertices not permuted')
M('rgbd-first-copy',F,'toFirst','if !copy && s.cf then .ok s else (clone s).map toFirst_','if !copy && s.cf then .ok s else .ok s','C45','no conversion')
M('rgbd-last-noconv',F,'toLast','(clone s).map toLast_','(clone s).map toFirst_','C45','converts the wrong way')
M('rgbd-slice-step',F,'resolveSlice','if step ≤ 0 then .error .valueError','if step < 0 then .error .valueError','C46','zero step accepted')
M('rgbd-int-neg',F,'resolveInt','else if 0 ≤ i + n then .ok (i + n).toNat','else if 0 ≤ i + n then .ok (-i).toNat','C46','negative list index counted from the front')
M('rgbd-resolve-int',F,'resolve','(some x) (some (x + 1)) none','(some x) none none','C46','an int selects everything from there on')
M('rgbd-two-int',F,'twoIx','.ok (.int i, .slice none none none)','.ok (.slice none none none, .int i)','C46','an int indexes time instead of batch')
M('rgbd-two-swap',F,'twoIx','.tup [a, b] => .ok (a, b)','.tup [a, b] => .ok (b, a)','C46','batch and time swapped')
M('rgbd-sel-poses',F,'selected','poses := s.poses.map (TM.sel is js)','poses := s.poses.map (TM.sel0 is)','C46','poses not indexed in time')
M('rgbd-sel-K',F,'selected','(s.K.sel0 is) none','s.K none','C46','intrinsics not indexed')
M('rgbd-sel-depth',F,'selected','(s.depth.sel is js)','(s.depth.sel (List.range is.length) js)','C46','depth of other batch elements')
M('rgbd-sel-normal',F,'selected','normal := s.normal.map (T5.sel is js)','normal := s.normal','C46','cached normals not indexed')
M('rgbd-sel-empty',F,'selected','else if js.length = 0 then .error .indexError\n  ','','C46','empty time selection accepted')
M('rgbd-getitem-L',F,'getitem','resolve s.L b','resolve s.B b','C46','time index checked against the batch size')
M('rgbd-getitem-both',F,'getitem','if bothLists a b then','if false then','C46','two lists select the product')
