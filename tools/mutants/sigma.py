T='Slam/Sigma.lean'
M('sg-type',T,'fuseSigma','    else (.error (.pcs .typeError), pc)','    else if h then (.error (.pcs .typeError), pc) else Fusion.fuseWithMapRaw (fun _ => 1) pc r rows inplace','C119','an empty map accepts any sigma')
M('sg-err',T,'fuseSigma','    else (.error (.pcs .typeError), pc)','    else (.error Fusion.valueError, pc)','C119','ValueError instead of TypeError')
M('sg-ten',T,'fuseSigma','    else if r.v.sh.d4 ≠ 3 then (.error Fusion.valueError, pc)\n    else (.error Fusion.valueError, pc)','    else if r.v.sh.d4 ≠ 3 then (.error Fusion.valueError, pc)\n    else Fusion.fuseWithMapRaw (fun _ => 1) pc r rows inplace','C119','tensors with dimensions accepted')
M('sg-map',T,'fuseSigma','    if !ok then (.error Fusion.valueError, pc)\n    else (.error (.pcs .typeError), pc)','    if !ok then (.error Fusion.valueError, pc)\n    else (.error (.pcs .typeError), newEmpty)','C119','the map is cleared when sigma is refused')
M('sg-live',T,'stepSigma','    | (.ok (), live) => match mapSigma S sg d t pc live inplace with\n      | (.error e, pc, live) => (.error e, pc, live)','    | (.ok (), live) => match mapSigma S sg d t pc live inplace with\n      | (.error e, pc, live) => (.error e, pc, { live with poses := none })','C119','poses cleared on failure')
M('sg-skip',T,'updateSigma','  | (.ok rows, pc) => fuseSigma sg pc r rows inplace','  | (.ok rows, pc) => if rows = [] then (.ok pc, pc) else fuseSigma sg pc r rows inplace','C119','no fusion without correspondences')
M('sg-swap',T,'mapSigma','updateSigma S.nrm sg pc fr d t inplace','updateSigma S.nrm sg pc fr t d inplace','C119','thresholds swapped')
M('sg-order',T,'pointFusionArgs','  match odomOf nn epsE p odom with\n  | .error e => .error e\n  | .ok o => match distTh with','  match odomOf nn epsE p odom with\n  | .error e => (match distTh with | .other => .error typeError | _ => .error e)\n  | .ok o => match distTh with','C119','thresholds tested before the odometry')
M('sg-deg',T,'pointFusionArgs','Real.cos (t * Real.pi / 180)','Real.cos t','C119','radians')
M('sg-neg',T,'pointFusionArgs','      | .number t => .ok','      | .number t => if d < 0 then .error .valueError else .ok','C119','negative thresholds refused')
