F='Slam/Model.lean'
M('slam-odo-compose',F,'odometry','Geom.composeTransforms1 (T.getD b M4.one) (P.at\' b 0)','Geom.composeTransforms1 (P.at\' b 0) (T.getD b M4.one)','C48','odometry composed on the wrong side')
M('slam-odo-prev',F,'odometry','(T.getD b M4.one) (P.at\' b 0)','(T.getD b M4.one) M4.one','C48','previous pose dropped')
M('slam-odo-b',F,'odometry','(P.at\' b 0)⟩, pc, live)','(P.at\' 0 0)⟩, pc, live)','C48','previous pose of the first batch element')
M('slam-odo-find',F,'odometry','Fusion.findActive pc (camera prev)','Fusion.findActive pc (camera live)','','equal poses: live was given the pose of prev (intrinsics may differ)')
M('slam-odo-args',F,'odometry','provide mapsPc framesPc','provide framesPc mapsPc','C48','map and frame swapped in the odometry call')
M('slam-loc-gt',F,'localize','| some P => (.ok P, pc, live)','| some P => (.ok (match prev with | some p => p.poses.getD P | none => P), pc, live)','','only differs if a previous frame is passed with gt odometry')
M('slam-loc-err',F,'localize','| none => (.error .valueError, pc, live)\n    | some P => (.ok P, pc, live)','| none => (.ok (⟨live.B, 1, fun _ _ => M4.one⟩), pc, live)\n    | some P => (.ok P, pc, live)','C47','missing ground truth replaced by the identity')
M('slam-loc-first',F,'localize','| .prov provide, some prev => match prev.poses with\n    | none => (.error .valueError, pc, live)','| .prov provide, some prev => match live.poses with\n    | none => (.error .valueError, pc, live)','C48','previous pose read from the live frame')
M('slam-agg-cf',F,'readAggregate','if live.cf then match Rgbd.toLast false live with','if !live.cf then match Rgbd.toLast false live with','','conversion skipped for channels-first frames (readFrame reads either layout in the model)')
M('slam-map-inplace',F,'mapStep','Fusion.updateMapAggregate pc fr inplace','Fusion.updateMapAggregate pc fr true','C50','always in place')
M('slam-map-old',F,'mapStep','| (.ok r, pc) => (.ok r, pc, live)\n  | .fusion','| (.ok _, pc) => (.ok pc, pc, live)\n  | .fusion','C50','returns the caller\'s object')
M('slam-map-th',F,'mapStep','pc fr d t inplace','pc fr t d inplace','','thresholds swapped; see pointFusion claims')
M('slam-step-pose',F,'step','| (.ok r, pc, live) => (.ok (r, T), pc, live)','| (.ok r, pc, live) => (.ok (r, ⟨T.d0, T.d1, fun _ _ => M4.one⟩), pc, live)','C47 C48','identity poses returned')
M('slam-step-set',F,'step','match Rgbd.setPoses (some T) live with\n    | (.error e, live) => (.error (.rgbd e), pc, live)\n    | (.ok (), live) => match mapStep S pc live inplace with','match (Except.ok () , live) with\n    | (.error e, live) => (.error (.rgbd e), pc, live)\n    | (.ok (), live) => match mapStep S pc live inplace with','C47 C48 C51','live frame mapped with its old pose')
M('slam-frameat',F,'frameAt','.int s]','.int 0]','C47 C49','always the first frame')
M('slam-live-eye',F,'liveFrame','if s = 0 ∧ live.poses = none then','if live.poses = none then','C48','every frame without poses starts at the identity (observable only through the providers)')
M('slam-live-eye2',F,'liveFrame','some (eyes frames.B)','none','C48','initial pose not set')
M('slam-iter-prev',F,'iter','if S.odom.isGt then none else some live','none','C48','previous frame never remembered')
M('slam-iter-pose',F,'iter','x.poses ++ [fun b => T.at\' b 0]','[fun b => T.at\' b 0] ++ x.poses','C47 C48 C49','poses recorded in reverse')
M('slam-iter-inplace',F,'iter','step S x.pc live x.prev true','step S x.pc live x.prev false','','out of place: the same values')
M('slam-iter-pc',F,'iter','.ok ⟨pc, if S.odom','.ok ⟨x.pc, if S.odom','C49 C51','map not updated')
M('slam-iters-start',F,'iters','| 0 => .ok ⟨newEmpty, none, []⟩','| 0 => .ok ⟨newEmpty, none, [fun _ => M4.one]⟩','C47 C49','pose list starts with an identity')
M('slam-iters-idx',F,'iters','| .ok x => iter S frames n x','| .ok x => iter S frames 0 x','C47 C49','frame index not advanced')
M('slam-fwd-L',F,'forward','iters S frames frames.L','iters S frames (frames.L - 1)','C47','last frame skipped')
M('slam-fwd-pose',F,'forward','x.poses.getD s (fun _ => M4.one) b','x.poses.getD (s + 1) (fun _ => M4.one) b','C47 C48','poses shifted by one')
M('slam-odom-gt',F,'odomOf','if odom = "gt" then','if odom ≠ "gt" then','C47','odometry names confused')
M('slam-odom-default',F,'odomOf','else .error .valueError','else .ok .gt','','unknown names fall back to gt')
M('slam-pf-deg',F,'pointFusion','Real.cos (angleTh * Real.pi / 180)','Real.cos angleTh','','angle threshold in radians')
