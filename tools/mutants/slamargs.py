T='Slam/Args.lean'
M('sa-prev',T,'stepArgs','      | .other => (.error typeError, pc, live)\n      | .none => match','      | .other => (match stepDs S ds s l none inplace with\n        | (r, s, l) => (r, .pc s, .rgbd l))\n      | .none => match','C118','a previous frame of a wrong type is treated as None')
M('sa-map',T,'stepArgs','    | .other => (.error typeError, pc, live)\n    | .pc s => match prev with','    | .other => (.error .valueError, pc, live)\n    | .pc s => match prev with','C118','a wrong map raises ValueError')
M('sa-poses',T,'stepBad','      | (.ok (), live) => (.error typeError, pc, live)','      | (.ok (), _) => (.error typeError, pc, live)','C118','the poses of the live frame are kept when the ratio is refused')
M('sa-none',T,'stepBad','    | none => (.error .valueError, pc, live)\n    | some P => match Rgbd.setPoses','    | none => (.error typeError, pc, live)\n    | some P => match Rgbd.setPoses','C118','the ratio is tested before the poses of the previous frame')
M('sa-gt',T,'stepBad','  | _, _ => step S pc live prev inplace','  | .prov _, none => step S pc live prev inplace\n  | .gt, _ => (.error typeError, pc, live)','C118','the ratio is tested with ground truth too')
M('sa-ds',T,'stepDs','  | .int n => step { S with ds := n } pc','  | .int n => step { S with ds := n + 1 } pc','C118','ratio off by one')
M('sa-fwd',T,'forwardArgs','  | .other => .error typeError\n  | .rgbd f => match ds with','  | .other => .error .valueError\n  | .rgbd f => match ds with','C118','forward raises ValueError')
M('sa-iter',T,'iterBad','if S.odom.isGt then none else some live','none','C118','the previous frame is never set')
M('sa-it2',T,'forwardArgs','match itersBad S f f.L with','match itersBad S f 1 with','C118','only one frame processed')
M('sa-prov',T,'provideArgs','    | .other => .error icpTypeError\n    | .pc f','    | .other => .error .valueError\n    | .pc f','C118','wrong frames raise ValueError')
M('sa-num',T,'provideArgs','      | .other => Icp.provide (fun _ _ _ _ => .error icpTypeError) m f','      | .other => .error icpTypeError','C118','the type of numiters is tested first')
M('sa-gtp',T,'groundTruthArgs','a.B a.L (a.poses.map Rgbd.TM.at\')','a.B a.L (b.poses.map Rgbd.TM.at\')','C118','ground truth reads the second poses twice (right types: C63)')
M('sa-shape',T,'downsampleArgs','else if dims.getD 1 0 ≠ 4 then','else if dims.getD 0 0 ≠ 0 ∧ dims.getD 1 0 ≠ 4 then','C118','empty tables of any width accepted')
M('sa-rows',T,'rowsOf','get [i, 0], get [i, 1], get [i, 2], get [i, 3]','get [i, 0], get [i, 1], get [i, 3], get [i, 2]','C118','row and column swapped')
M('sa-dsord',T,'downsampleArgs','      | .other => (.error icpTypeError, pc)\n      | .int n =>','      | .other => (if dims.length ≠ 2 then .error .valueError else .error icpTypeError, pc)\n      | .int n =>','C118','shape tested before the type of the ratio')
