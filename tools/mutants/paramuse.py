T='Slam/Model.lean'
M('pu-loc',T,'localize','  | _, _ => match live.poses with','  | .prov _, none => (.error .valueError, pc, live)\n  | .gt, _ => match live.poses with','C117','a missing previous frame is refused by providers')
M('pu-gt',T,'localize','  | _, _ => match live.poses with\n    | none => (.error .valueError, pc, live)\n    | some P =>','  | _, _ => match live.poses with\n    | none => (.error .valueError, pc, live)\n    | some P => if S.ds ≤ 0 then (.error .valueError, pc, live) else','C117','ratio checked early')
M('pu-icp',T,'odomOf','src tgt nrm T0 p.numiters p.damp p.distThresh))\n  else if odom = "gradicp"','src tgt nrm T0 p.numiters p.lambdaMax p.distThresh))\n  else if odom = "gradicp"','C117','lambda_max passed to ICP')
M('pu-map',T,'mapStep','match Fusion.updateMapAggregate pc fr inplace with','match (if S.ds = 0 then (.error .attributeError, pc) else Fusion.updateMapAggregate pc fr inplace) with','C117','map depends on the ratio')
M('pu-iter',T,'iter','if S.odom.isGt then none else some live','none','C117','the previous frame is never set')
M('pu-fwd',T,'forward','frames.L with\n','(frames.L - 1) with\n','C117','last frame skipped')
M('pu-slam',T,'icpSlam','.ok ⟨o, p.ds, .aggregate','.ok ⟨o, max p.ds 1, .aggregate','C117','ratio made positive by the constructor')
M('pu-ds','Icp/Raw.lean','downsampleRaw','else if ds ≤ 0 then','else if ds < 0 then','C117','ratio 0 accepted')
M('pu-fin','Icp/Model.lean','finish','    | none => .error .unboundLocalError','    | none => .ok (s.T, [])','C117','no iterations: identity')
