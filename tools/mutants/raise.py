F='PC/Model.lean'
M('ra-batch',F,'append','''else if o.B ≠ s.B then (.error .valueError, s, o)''','''else if o.B ≠ s.B then (.error .valueError, (appendAttr .points s o).1, o)''','C94 C28','points are appended before the batch sizes are compared')
M('ra-norm',F,'append','''if n1 ≠ n2 then (.error .valueError, s, o)''','''if n1 ≠ n2 then (.error .valueError, newEmpty, o)''','C94 C28','map emptied when normals are missing')
M('ra-width',F,'append','''if k1 ≠ k2 then (.error .valueError, s, o)''','''if k1 ≠ k2 then (.error .valueError, (appendAttr .points s o).1, o)''','C94 C28','points are appended before the feature widths are compared')
F='Slam/Model.lean'
M('ra-step',F,'step','''match mapStep S pc live inplace with
      | (.error e, pc, live) => (.error e, pc, live)''','''match mapStep S pc live inplace with
      | (.error e, _, live) => (.error e, newEmpty, live)''','C94','map reset when the update raises')
M('ra-loc',F,'odometry','''| .error e => (.error (.icp e), pc, live)
          | .ok T =>''','''| .error e => (.error (.icp e), mapsPc, live)
          | .ok T =>''','C94','the downsampled map replaces the map when the provider raises')
M('ra-img',F,'odometry','''| (.error e, live) => (.error (.rgbd e), pc, live)
  | (.ok (), live) => match withFrame''','''| (.error e, _) => (.error (.rgbd e), pc, prev)
  | (.ok (), live) => match withFrame''','C94','the live frame becomes the previous frame when batch sizes differ')
M('ra-ret',F,'localize','''| none => (.error .valueError, pc, live)
    | some P => odometry S provide pc live prev P''','''| none => (.error .valueError, pc, prev)
    | some P => odometry S provide pc live prev P''','C94','the live frame becomes the previous frame when that has no poses')
M('ra-map',F,'mapStep','''| (.error e, live) => (.error (.rgbd e), pc, live)
    | (.ok fr, live) => match Fusion.updateMapFusionRaw''','''| (.error e, live) => (.error (.rgbd e), newEmpty, live)
    | (.ok fr, live) => match Fusion.updateMapFusionRaw''','C94','map emptied when the frame cannot be read')
F='Fusion/Model.lean'
M('ra-check',F,'mergeStep','''else if (shape3 f).2.2 ≠ 1 ∧ (shape3 f).2.2 ≠ 3 then (.error (.pcs .runtimeError), pc)''','''else if (shape3 f).2.2 ≠ 1 ∧ (shape3 f).2.2 ≠ 3 then (.error (.pcs .runtimeError), (setPad .points (mapRows (fun b n r => mergeRow (cell f b n) (scatterAl al fr rows b n) (scatter rows fr.gv b n) r) (p.getD [])) pc).2)''','C94','points are written before the width of the features is found not to fit')
M('ra-req',F,'requireAll','''if h then requireAll rest pc else (false, pc)''','''if h then requireAll rest pc else (false, newEmpty)''','C94','map emptied when an attribute is missing')
M('ra-clone',F,'cloneAppend','''| (.error e, _, _) => (.error (.pcs e), pc)
      | (.ok (), c, _) => (.ok c, pc)''','''| (.error e, c, _) => (.error (.pcs e), o)
      | (.ok (), c, _) => (.ok c, pc)''','C94','the new points replace the map when they cannot be appended out of place')
F='Fusion/Raw.lean'
M('ra-raw',F,'fuseWithMapRaw','else if r.v.sh.d4 ≠ 3 then (.error valueError, pc)','else if r.v.sh.d4 ≠ 3 then (.error valueError, newEmpty)','C94','map emptied when get_alpha raises')
F='Rgbd/Model.lean'
M('ra-set',F,'setPoses','then (.error .valueError, s)\n  else (.ok (), { s with poses := v,','then (.error .valueError, { s with poses := none })\n  else (.ok (), { s with poses := v,','C94 C44','poses are cleared when the shape is refused')
# definitions not edited before
M('rb-recopy','Mem/Copy2.lean','recopy','(.ok (copyInternal s c), s)','(.ok (copyInternal c s), s)','C81','detach() gives the object itself with the copy\'s internals')
M('rb-self','Mem/World.lean','appendSelf','else (.ok (), m, (hasAttr .points o).2)','else (.ok (), m, o)','C81','the has-points flag is not cached (unobservable)')
M('rb-self2','Mem/World.lean','appendSelf','if (hasAttr .points o).1 then','if !(hasAttr .points o).1 then','C81','appending to itself does nothing unless empty')
M('rb-ents','CfgMem/Model.lean','buildEnts','.ok (H, (k, r\') :: es\')','.ok (H, (k, r) :: es\')','C89','nested dicts are not replaced')
M('rb-merge','CfgMem/Model.lean','merge','mergeLoop lit lim root (merge lit lim root n)','mergeLoop lit lim root (fun _ H _ _ => (H, none))','C89','nested configs are not merged')
M('rb-best','Fusion/Raw.lean','findBestRaw','else if r.B ≠ pc.B then (.error valueError, pc)','else if r.B = pc.B then (.error valueError, pc)','C91','batch check inverted')
M('rb-corr','Fusion/Raw.lean','findCorrespondencesRaw','| (.ok (rows, _), pc) => findBestRaw pc r rows','| (.ok (_, _), pc) => findBestRaw pc r rows','C91','similar points ignored')
M('rb-cuda','RMem/Model.lean','cuda','toDevice cur .anyGpu false','toDevice cur (.exact .cpu) false','C84','cuda() moves to the CPU')
M('rb-scan','Data/Select.lean','scanFrame','.ok ⟨c, d, p, l, k⟩','.ok ⟨d, c, p, l, k⟩','C87','depth and colour paths swapped')
M('rb-rowF','Flt/Model.lean','mergeRowF','mergeF F (coef c k) a x (comp q k)','mergeF F (coef c k) a (comp q k) x','C90','old and new value swapped')
M('rb-pixF','Flt/ProjModel.lean','pixelF','(Fusion.clampIdx H (Fusion.roundEven q.2), Fusion.clampIdx W (Fusion.roundEven q.1))','(Fusion.clampIdx H (Fusion.roundEven q.1), Fusion.clampIdx W (Fusion.roundEven q.2))','C93','row and column swapped')
