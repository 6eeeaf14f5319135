F='PC/Model.lean'
# construction
M('pc-new-empty',F,'newList','if P.length = 0 then .error .valueError\n  else if P.any','if P.any','C33','an empty list of clouds is accepted')
M('pc-new-cols',F,'newList','P.any (fun p => p.cols ≠ 3)','(P.headD ⟨[], 3⟩).cols ≠ 3','C33','only the first cloud is checked to be 3-D')
M('pc-new-normals',F,'newList','(fun n => n.map T2.shape = P.map T2.shape) then .error .valueError\n  else if !okOpt (arg .colors)','(fun n => n.length = P.length) then .error .valueError\n  else if !okOpt (arg .colors)','C33','normals only checked for the number of clouds')
M('pc-new-colors',F,'newList','okOpt (arg .colors) (fun c => c.map T2.shape = P.map T2.shape)','okOpt (arg .normals) (fun c => c.map T2.shape = P.map T2.shape)','C33','colours never checked (normals checked twice)')
M('pc-new-feat-rows',F,'newList','f.map (·.rows.length) = P.map (·.rows.length)','f.length = P.length','C33','feature row counts not checked')
M('pc-new-feat-cols',F,'newList','(f.map (·.cols)).dedup.length = 1','(f.map (·.cols)).dedup.length ≤ 2','C33','features of different widths accepted')
M('pc-new-num',F,'newList','some (equi num), P.length,\n      maxL num⟩','some (equi num), P.length,\n      num.headD 0⟩','C26 C30','N is the size of the first cloud, not of the largest')
M('pc-new-equi',F,'newList','some (equi num), P.length','some true, P.length','C26','always flagged equisized')
M('pc-new-B',F,'newList','num, some (equi num), P.length,','num, some (equi num), P.length + 1,','C26 C28','batch size off by one')
M('pc-newT-3',F,'newTensor','(shape3 P).2.2 ≠ 3','(shape3 P).2.2 < 3','C33','wider points accepted')
M('pc-newT-colors',F,'newTensor','(fun c => shape3 c = shape3 P)','(fun c => (shape3 c).2.1 = (shape3 P).2.1)','C33','colour batch size not checked')
M('pc-newT-feat',F,'newTensor','((shape3 f).1, (shape3 f).2.1) = ((shape3 P).1, (shape3 P).2.1)','((shape3 f).1, (shape3 f).2.2) = ((shape3 P).1, (shape3 P).2.2)','C33','compares feature width instead of number of points')
M('pc-newT-num',F,'newTensor','List.replicate P.length (shape3 P).2.1, some true','List.replicate P.length (shape3 P).1, some true','C26 C33','points per cloud taken from the batch axis')
M('pc-maxL',F,'maxL','l.foldr max 0','l.foldr min 0','C25 C26','minimum instead of maximum')
M('pc-equi',F,'equi','l.all (· == l.headD 0)','l.any (· == l.headD 0)','C26','any instead of all')
# presence, getters
M('pc-has-list',F,'hasAttr','(s.lst X).isSome || (s.pad X).isSome','(s.lst X).isSome','C32 C26','presence ignores the padded representation')
M('pc-has-and',F,'hasAttr','(s.lst X).isSome || (s.pad X).isSome','(s.lst X).isSome && (s.pad X).isSome','C32 C26','and instead of or')
M('pc-has-nocache-attr',F,'hasAttr','Function.update s.has X (some b)','Function.update s.has .points (some b)','C32 C26','the cached answer is stored under points')
M('pc-numfeat',F,'numFeatures','some p => ((shape3 p).2.2, s)\n    | none => match','some p => ((shape3 p).2.1, s)\n    | none => match','C26 C28','number of features read from the points axis')
M('pc-getlist-nocut',F,'getList','T2.take n t) p s.num','t) p s.num','C26','list getter returns padding rows')
M('pc-getlist-N',F,'getList','T2.take n t) p s.num','T2.take (n - 1) t) p s.num','C26','list getter loses the last point')
M('pc-getlist-cache',F,'getList','{ s with lst := Function.update s.lst X (some l) })','{ s with lst := Function.update s.lst .points (some l) })','C26','list cached under the wrong attribute')
M('pc-mask-le',F,'getMask','decide (n < if','decide (n ≤ if','C26 C30','mask one row too long')
M('pc-mask-eq',F,'getMask','then s.num.headD 0 else s.num.getD b 0','then s.num.headD 0 else s.num.headD 0','C26 C30','mask uses the first cloud size for all')
M('pc-mask-N',F,'getMask','(List.range s.N).map','(List.range (s.N - 1)).map','C26','mask too narrow')
M('pc-pad-front',F,'padItem','y.rows.map (fun r => r ++ List.replicate (C - y.cols) 0) ++ List.replicate (N - y.rows.length) (List.replicate C 0)','List.replicate (N - y.rows.length) (List.replicate C 0) ++ y.rows.map (fun r => r ++ List.replicate (C - y.cols) 0)','C25 C26','padding in front of the points')
M('pc-pad-colfront',F,'padItem','fun r => r ++ List.replicate (C - y.cols) 0','fun r => List.replicate (C - y.cols) 0 ++ r','C25','columns padded on the left')
M('pc-pad-empty',F,'padItem','.ok ⟨List.replicate N (List.replicate C 0), C⟩','.ok ⟨List.replicate N (List.replicate y.cols 0), y.cols⟩','C25','empty clouds padded to their own width')
M('pc-ltp-eqskip',F,'listToPadded','if x.all (fun t => t.shape = (x.headD ⟨[], 0⟩).shape) then .ok x else .error .runtimeError','.ok x','C25','unequal tensors stacked without error')
M('pc-ltp-order',F,'listToPadded','else mapE (padItem N C) x','else mapE (padItem N C) x.reverse','C25 C26','batch order reversed')
M('pc-ltpauto-cols',F,'listToPaddedAuto','(maxL (ne.map (·.cols)))','(maxL (ne.map (·.rows.length)))','C25','width taken from the number of rows')
M('pc-ltpauto-filter',F,'listToPaddedAuto','x.filter fun y => y.rows.length > 0','x.filter fun y => y.rows.length > 1','C25','single-row tensors ignored for the size')
M('pc-ptl-check',F,'paddedToList','if x.length ≠ ns.length then','if x.length < ns.length then','C25','missing split sizes silently truncate')
M('pc-ptl-cut',F,'paddedToList','T2.take n t) x ns','T2.take (n+1) t) x ns','C25','one padding row kept')
M('pc-fill-C',F,'computePadded','fillPad .colors 3 s with','fillPad .colors 4 s with','C26','colours padded to 4 columns')
M('pc-fill-skip',F,'computePadded','match fillPad .normals 3 s with','match fillPad .points 3 s with','C26','normals never padded')
M('pc-fill-feat',F,'computePadded','if (s.lst .features).isSome then numFeatures s else (0, s)','(3, s)','C26','features padded to 3 columns')
M('pc-fill-none',F,'fillPad','{ s with pad := Function.update s.pad X none })\n','s)\n','','absent list leaves the padded tensor (only reachable with stale state)')
# setters
M('pc-setpad-list',F,'setPad','lst := Function.update s.lst X none })','lst := s.lst })','C27 C26','the old list is kept after assigning the padded tensor')
M('pc-setpad-zero',F,'setPad','else if !zeroBeyond v s.num then (.error .valueError, s)\n','','C27 C26','non-zero padding accepted')
M('pc-setpad-feat',F,'setPad','((shape3 v).1, (shape3 v).2.1) ≠ (ps.1, ps.2.1)','((shape3 v).1) ≠ (ps.1)','C27 C26','feature rows not checked')
M('pc-setpad-shape',F,'setPad','X ≠ .features ∧ shape3 v ≠ ps','X ≠ .features ∧ (shape3 v).1 ≠ ps.1','C27 C26','only batch size is checked')
M('pc-setpad-attr',F,'setPad','pad := Function.update s.pad X (some v)','pad := Function.update s.pad .points (some v)','C27 C26','assigns the points whatever the attribute')
M('pc-zero-take',F,'zeroBeyond','(t.rows.drop n).all','(t.rows.drop (n+1)).all','C27','first padding row unchecked')
M('pc-setlist-pad',F,'setList','pad := if X = .points then Function.update s.pad .points none else s.pad','pad := s.pad','C27','padded points kept after assigning the list')
M('pc-setlist-B',F,'setList','else if s.B ≠ v.length then (.error .valueError, s)\n','','','redundant check: the shape comparison also compares the number of clouds')
M('pc-setlist-shape',F,'setList','X ≠ .features ∧ v.map T2.shape ≠ P.map T2.shape','X ≠ .features ∧ v.map (·.cols) ≠ P.map (·.cols)','C27 C26','number of points may change')
M('pc-setlist-feat',F,'setList','X = .features ∧ v.map (·.rows.length) ≠ P.map (·.rows.length)','X = .features ∧ False','C27 C26','feature rows unchecked')
# clone
M('pc-copy-num',F,'copyInternal','    num := s.num }','    num := other.num }','C29','number of points not copied (padded form)')
M('pc-copy-pad',F,'copyInternal','if (s.pad X).isSome then s.pad X else other.pad X','other.pad X','C29','padded tensors not copied')
M('pc-copy-mask',F,'copyInternal','mask := if s.mask.isSome then s.mask else other.mask','mask := other.mask','C29','mask not copied')
M('pc-clone-points',F,'clone','((newList s.lst P).map (copyInternal s), s)','((newList (fun _ => none) P).map (copyInternal s), s)','C29','only points are cloned')
# append
M('pc-append-order',F,'appendAttr','t.rows ++ u.rows','u.rows ++ t.rows','C28','new points put first')
M('pc-append-pad',F,'appendAttr','pad := Function.update s.pad X none }, o)','pad := s.pad }, o)','C28','stale padded tensor after append')
M('pc-append-drop',F,'append','let (s, o) := appendIf .colors s o','let (s, o) := (s, o)','C28','colours not appended')
M('pc-append-feat',F,'append','if f1 ≠ f2 then (.error .valueError, s, o)','if f1 && !f2 then (.error .valueError, s, o)','C28','features of the argument silently dropped')
M('pc-append-width',F,'append','if k1 ≠ k2 then (.error .valueError, s, o)','if k1 < k2 then (.error .valueError, s, o)','C28','narrower features accepted')
M('pc-append-num',F,'append','let num := List.zipWith (· + ·) s.num o.num','let num := s.num','C28','number of points not updated')
M('pc-append-N',F,'append','N := maxL num, mask := none','N := s.N, mask := none','C28','N not updated')
M('pc-append-mask',F,'append','N := maxL num, mask := none }','N := maxL num }','C28','stale mask after append')
M('pc-append-eq',F,'append','eq := some (equi num), N := maxL num','N := maxL num','C28','equisized flag not updated')
M('pc-append-B',F,'append','else if o.B ≠ s.B then (.error .valueError, s, o)\n','','C28','batch sizes unchecked: clouds silently dropped')
M('pc-append-emptyB',F,'append','{ s with has := o.has, B := o.B, N := o.N, eq := o.eq }','{ s with has := o.has, N := o.N, eq := o.eq }','C28','batch size not copied into an empty object')
M('pc-append-empty-noattr',F,'append','let (s, o) := copyAttr .normals s o\n','','C28','normals not copied into an empty object')
M('pc-append-empty-has',F,'append','{ s with has := o.has, B := o.B','{ s with B := o.B','C28 C32','presence cache not copied: the empty object still says it has no points')
# geometry
M('pc-offset-mask',F,'offset_','x + f b n c * maskVal (m.getD []) b n','x + f b n c','C30','padding rows are offset')
M('pc-offset-list',F,'setPts','lst := Function.update s.lst .points none }','lst := s.lst }','C30','stale point list after an in-place operation')
M('pc-scale-mask',F,'scale_','x * f b n c * maskVal (m.getD []) b n','x * f b n c','','zero padding stays zero when scaled (sanity check)')
M('pc-scale-add',F,'scale_','x * f b n c * maskVal','(x + f b n c) * maskVal','C30','adds instead of multiplying')
M('pc-rowmul',F,'rowMul','x * M.r0.x + y * M.r1.x + z * M.r2.x','x * M.r0.x + y * M.r0.y + z * M.r0.z','C30','transposed first column')
M('pc-rotate-pre',F,'rotate_','if pre then (R.at M3.one b).transpose else R.at M3.one b','if pre then R.at M3.one b else (R.at M3.one b).transpose','C30','pre_multiplication inverted')
M('pc-rotate-normals',F,'rotate_','.normals ((s.pad .normals).map (mapRows g))','.normals (s.pad .normals)','C30','normals not rotated')
M('pc-rotate-nlist',F,'rotate_','lst := Function.update (Function.update s.lst .points none) .normals none','lst := Function.update s.lst .points none','C30','stale normals list')
M('pc-rotate-batch',F,'at','.batch ms, b => ms.getD b d','.batch ms, b => ms.getD 0 d','C30','first matrix used for all clouds')
M('pc-badsize',F,'badSize','ms.length ≠ B','ms.length < B','C30','too many matrices accepted')
M('pc-transform-t',F,'transform_','offset_ (fun b _ c => comp (T.at M4.one b).t c) s','(.ok (), s)','C30','translation dropped')
M('pc-transform-comp',F,'comp','| 1 => t.y\n  | _ => t.z','| 1 => t.z\n  | _ => t.y','C30','y and z translation swapped')
M('pc-transform-order',F,'transform_','match rotate_ (T.map M4.R) pre s with','match rotate_ (T.map M4.R) (!pre) s with','C30','pre flag negated')
M('pc-pinhole-mask',F,'pinholeProjection_','.map fun x => x * maskVal (m.getD []) b n','.map fun x => x','C30','padding projected to [u,v,1]')
M('pc-proj-one',F,'projRow','[uv.1, uv.2, 1]','[uv.1, uv.2, z]','C30','third coordinate kept',tightened=['projRow_vec'])
M('pc-oop',F,'outOfPlace','| (.error e, s) => (.error e, s)\n  | (.ok c, s) => match op c with\n    | (.error e, _) => (.error e, s)\n    | (.ok (), c) => (.ok c, s)','| (.error e, s) => (.error e, s)\n  | (.ok _, s) => match op s with\n    | (.error e, s) => (.error e, s)\n    | (.ok (), s) => (.ok s, s)','C30','out-of-place operations change self')
M('pc-sub',F,'sub','f b n c * -1','f b n c','C30','subtraction adds')
M('pc-div',F,'div','1 / f b n c','f b n c','C30','division multiplies')
# indexing
M('pc-index-neg',F,'pyIndex','.ok (i + n).toNat','.ok (-i).toNat','C31','negative index from the front')
M('pc-index-bound',F,'pyIndex','if i < n then','if i ≤ n then','C31','index n accepted')
M('pc-index-negbound',F,'pyIndex','if 0 ≤ i + n then','if 0 < i + n then','C31','-n rejected')
M('pc-slice-neg',F,'sliceLo','| none => if 0 < step then 0 else n - 1','| none => 0','C31','[::-1] starts at 0')
M('pc-slice-clamp',F,'sliceHi','(if x < 0 then max (x + n) 0 else min x n) else','(if x < 0 then max (x + n) 0 else x) else','C31','stop not clamped')
M('pc-rangelen',F,'rangeLen','((hi - lo - 1) / step + 1).toNat','((hi - lo) / step).toNat','C31','partial last step lost')
M('pc-resolve-mask',F,'resolve','fun k => m.getD k false','fun k => !m.getD k false','C31','mask complemented')
M('pc-resolve-step',F,'resolve','if step = 0 then .error .valueError','if step < 0 then .error .valueError','C31','negative steps rejected, zero accepted')
M('pc-getitem-mix',F,'getitem','| .normals => n | .colors => c','| .normals => c | .colors => n','C31','normals and colours swapped')
M('pc-getitem-unsel',F,'getitem','selectAttr idx .features s with','selectAttr (.slice none none none) .features s with','C31','features not indexed')
