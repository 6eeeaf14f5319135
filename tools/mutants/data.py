W='Data/Window.lean'; A='Data/Assoc.lean'; F='Data/Files.lean'; I='Data/Images.lean'; Q='Data/Quat.lean'
M('data-slice',W,'slice','(l.take stop).drop start','(l.drop start).take stop','C07 C11 C12','slice takes stop elements after start')
M('data-val-default',W,'validate','a.stride.getD (a.seqlen * (dilation + 1))','a.stride.getD (a.seqlen)','C08','default stride ignores dilation')
M('data-val-end',W,'validate','if e > start then','if e ≥ start then','C08','empty range end = start accepted')
M('data-val-neg',W,'validate','  else if start < 0 then .error .valueError\n','','C08','negative start not rejected')
M('data-range',W,'pyRange','(n + step - 1) / step','n / step','','range drops the last partial step (windows never start there unless they fit: only seqlen 1 windows are lost)')
M('data-offsets',W,'offsets','(List.range seqlen).map (· * (dilation + 1))','(List.range seqlen).map (· * dilation)','C07','frames dilation apart instead of dilation+1')
M('data-win-gt',W,'windowLoop','if s + last ≥ frames.length then .ok []','if s + last + 1 ≥ frames.length then .ok []','C08','last fitting window dropped')
M('data-win-over',W,'windowLoop','if s + last ≥ frames.length then .ok []','if s + last > frames.length then .ok []','C07 C08','off by one lets a window run past the end')
M('data-win-base',W,'windowLoop','match gather frames (idx.map (s + ·)) with','match gather frames idx with','C07','window start ignored')
M('data-all',W,'allWindows','| .ok b => .ok (a ++ b)','| .ok b => .ok (b ++ a)','C07','trajectories concatenated in the wrong order')
M('data-diff-sign',A,'stampDiff','|val a - (val b + offset)|','|val a - (val b - offset)|','C09 C10','offset subtracted')
M('data-diff-noabs',A,'stampDiff','|val a - (val b + offset)|','(val a - (val b + offset))','C09','no absolute value')
M('data-cand-le',A,'candidates','if stampDiff val offset a b < maxDiff then','if stampDiff val offset a b ≤ maxDiff then','C09','difference equal to the tolerance accepted')
M('data-greedy-noremove',A,'greedy','(a, b) :: greedy r (f.erase a) (s.erase b)','(a, b) :: greedy r (f.erase a) s','C09','matched second stamp can be reused')
M('data-greedy-or',A,'greedy','if a ∈ f ∧ b ∈ s then','if a ∈ f ∨ b ∈ s then','C09','only one of the stamps must be free')
M('data-assoc-unsorted',A,'associate','(greedy ((candidates val offset maxDiff first second).mergeSort tripleLe) first second)','(greedy (candidates val offset maxDiff first second) first second)','C10','candidates not sorted by difference')
M('data-assoc-nosort',A,'associate','first second).mergeSort pairLe','first second)','C10','result not sorted')
M('data-fa-second',A,'findAssociations','associate val 0 maxDiff (matchesDict.map (·.1)) poses','associate val 0 maxDiff (matchesDict.map (·.2)) poses','C61','poses associated with the colour stamps')
M('data-fa-swap',A,'findAssociations','| some r => .ok (r, m.1, m.2)','| some r => .ok (m.1, r, m.2)','C61','colour and depth stamps swapped')
M('data-strip',F,'strip','((s.dropWhile isWs).reverse.dropWhile isWs).reverse','s.dropWhile isWs','','only leading blanks stripped (fields of a split line never end in a blank except CR: spec covers tokens only)')
M('data-unify',F,'unify',"if c = ',' ∨ c = '\\t' then ' ' else c","if c = ',' then ' ' else c",'C59','tabs not treated as separators')
M('data-isdata',F,'isData',"| c :: _ => c ≠ '#'","| _ :: _ => true",'C59','comment lines not skipped')
M('data-fields',F,'fields',"((splitC ' ' line).filter fun v => strip v ≠ []).map strip","(splitC ' ' line).map strip",'C59','empty columns kept')
M('data-dict-first',F,'dictInsert','if p.1 = k then (k, v) :: d else','if p.1 = k then p :: d else','C59','first duplicate wins')
M('data-rowpair',F,'rowPair','  | k :: v :: vs => some (k, v :: vs)','  | k :: v :: vs => some (v, k :: vs)','C59','key is the second column',tightened=['read_file_list_entries (added)'])
M('data-rfl-end',F,'readFileList','(stop.getD lines.length)','(stop.getD (lines.length - 1))','C59','last line lost when the file ends without a newline')
M('data-rfl-cut-first',F,'readFileList','  let l := (lines.filter isData).map fields\n  let l := slice l (start.getD 0) (stop.getD lines.length)','  let l := ((slice lines (start.getD 0) (stop.getD lines.length)).filter isData).map fields','C59','comment lines counted by start/end')
M('data-traj-quat',F,'trajFilter','slice l 4 8','slice l 1 4','C62','zero translation dropped instead of zero quaternion')
M('data-traj-cols',F,'readTrajectory','slice l 1 8','slice l 1 7','C62','last quaternion component lost')
M('data-traj-first',F,'trajCols','if n > 0 then','if n > 1 then','C62','the x coordinate stays a string')
M('data-icl-last',F,'iclLines','if isTraj0 then lines.dropLast else lines','lines','C11','last line of trajectory 0 kept')
M('data-icl-factor',F,'iclPoseLines','.ok ((x, k * 4) :: r)','.ok ((x, k * 3) :: r)','C11','three instead of four lines per pose')
M('data-icl-check',F,'iclPoseLines','if k * 4 > posesLen then','if k * 4 > posesLen + 4 then','C11','missing pose check weakened',tightened=['icl_length_check (added)'])
M('data-loadposes',F,'loadPosesLoop','if (pose ++ [line]).length = 3 then','if (pose ++ [line]).length = 4 then','C11','four lines read per pose')
M('data-loadposes-reset',F,'loadPosesLoop','match loadPosesLoop bottom starts (i + 1) [] false rest with','match loadPosesLoop bottom starts (i + 1) [] true rest with','C11','keeps parsing after a pose')
M('data-scan-len',F,'scanLoop','if seqlen\' > lines.length then','if seqlen\' > lines.length + 1 then','C12','length check off by one',tightened=['scannet_init_iff (added)'])
M('data-scan-start',F,'scanLoop','let seqlen\' : Int := if full then stop\' - start else seqlen','let seqlen\' : Int := if full then stop\' else seqlen','C12','start ignored in the full-length case')
M('data-scan-item',F,'scanItem','gather fs (List.range s.seqlen.toNat)','gather fs (List.range (s.seqlen.toNat - 1))','C12','last frame missing')
M('data-scan-init',F,'scanInit','else if ¬ (stop = -1 ∨ stop > start) then .error .valueError','else if ¬ (stop = -1 ∨ stop ≥ start) then .error .valueError','C12','empty range accepted')
M('data-remap-entry',I,'remapping','(16, 14)','(16, 13)','C13','curtain mapped to desk')
M('data-remap-order',I,'remapping','   (14, 13), (16, 14), (24, 15),','   (24, 15), (14, 13), (16, 14),','','order change within the non-interfering part (no claim broken)')
M('data-remap-missing',I,'remapping','(35, 0), (37, 0)','(37, 0)','C13','lamp not mapped to 0')
M('data-paint-last',I,'createLabelImage','(palette.zipIdx.map fun p => (p.2, p.1))','(palette.zipIdx.map fun p => (p.2 + 1, p.1))','C60','palette shifted by one')
M('data-palette',I,'scannet20','("desk", (247, 182, 210)), ("curtain"','("desk", (247, 182, 211)), ("curtain"','C60','palette typo')
M('data-normalize',I,'normalizeImage','t.get i / 255','t.get i / 256','C16','divides by 256')
M('data-chord',I,'channelOrdering','(((List.range ndim).set (ndim - 2) (ndim - 3)).set (ndim - 1) (ndim - 2)).set (ndim - 3) (ndim - 1)','(((List.range ndim).set (ndim - 1) (ndim - 3)).set (ndim - 2) (ndim - 2)).set (ndim - 3) (ndim - 1)','C16','height and width swapped in the permutation')
M('data-chrank',I,'channelsFirst','if t.shape.length < 3 then','if t.shape.length < 2 then','C16','rank check off by one')
M('data-scaleK',I,'scaleIntrinsics3','⟨⟨K.r0.x * w, K.r0.y, K.r0.z * w⟩, ⟨K.r1.x, K.r1.y * h, K.r1.z * h⟩, K.r2⟩','⟨⟨K.r0.x * h, K.r0.y, K.r0.z * h⟩, ⟨K.r1.x, K.r1.y * w, K.r1.z * w⟩, K.r2⟩','C15','height and width ratios swapped')
M('data-scaleK-cx',I,'scaleIntrinsics3','K.r0.z * w','K.r0.z','C15','principal point not scaled')
M('data-p2t',I,'posesToTransforms','(fun p q => (inv p).mul q) poses poses.tail','(fun p q => (inv q).mul p) poses poses.tail','C14','transform from the later to the earlier frame')
M('data-p2t-first',I,'posesToTransforms','| _ => M4.one :: List','| p0 :: _ => p0 :: List','C14','first transform is the first pose')
M('data-pre',I,'preprocessPoses','Geom.composeTransforms1 (inv p0) p','Geom.composeTransforms1 p (inv p0)','C14','relative pose composed on the wrong side')
M('data-quat-asm',Q,'assemble','⟨q.x * q.y + q.z * q.w, 1 -','⟨q.x * q.y - q.z * q.w, 1 -','C58','sign error in the assembled rotation')
M('data-quat-half',Q,'pointquaternionToHomogeneous','0.5 * (q.x','(q.x','C58','factor 0.5 lost')
M('data-t44',Q,'transform44','let s := √(2 / nq)','let s := √(1 / nq)','C58','scale sqrt(1/n)')
M('data-t44-eps',Q,'transform44','if nq < EPS then .error .typeError','if nq < EPS then .ok (assemble t ⟨0,0,0,0⟩)','C58','identity fallback instead of the TypeError')
