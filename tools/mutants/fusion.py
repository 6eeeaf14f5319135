F='Fusion/Model.lean'
M('fus-round',F,'roundEven','⌊x⌋ else if 1 / 2 < x - ⌊x⌋','⌊x⌋ else if 1 / 4 < x - ⌊x⌋','C34','rounding ties up instead of to even')
M('fus-round-floor',F,'roundEven','if x - ⌊x⌋ < 1 / 2 then ⌊x⌋ else','if True then ⌊x⌋ else','C34','floor instead of round')
M('fus-clamp',F,'clampIdx','(min (max k 0) (n - 1)).toNat','(min (max k 0) n).toNat','C34','clamps to n')
M('fus-inframe-swap',F,'isInFrame','q.getD 0 0 < (W : α) - 999 / 1000','q.getD 0 0 < (H : α) - 999 / 1000','C34','u compared with the height')
M('fus-inframe-z',F,'isInFrame','&& decide (z > 0) && m','&& m','C34','points behind the camera accepted')
M('fus-inframe-mask',F,'isInFrame','decide (z > 0) && m','decide (z > 0)','C34','padding not masked')
M('fus-inframe-lo',F,'isInFrame','q.getD 1 0 > -1 / 1000','q.getD 1 0 > 0','C34','the top border excluded')
M('fus-inframe-hi',F,'isInFrame','(W : α) - 999 / 1000','(W : α) + 1','C34','points right of the image accepted')
M('fus-rows-hw',F,'activeRows','⟨b, n, clampIdx H (roundEven ((cell q b n).getD 1 0)), clampIdx W (roundEven ((cell q b n).getD 0 0))⟩','⟨b, n, clampIdx H (roundEven ((cell q b n).getD 0 0)), clampIdx W (roundEven ((cell q b n).getD 1 0))⟩','C34','row and column swapped')
M('fus-rows-cam',F,'activeRows','isInFrame H W ((cell p b n).getD 2 0)','isInFrame H W ((cell q b n).getD 2 0)','C34','sign test on the homogeneous coordinate')
M('fus-active-inv',F,'findActive','Geom.inverseTransform1 (T b 0)','(T b 0)','C34','pose not inverted')
M('fus-active-batch',F,'findActive','Geom.inverseTransform1 (T b 0)','Geom.inverseTransform1 (T 0 0)','C34','pose of the first batch element')
M('fus-active-K',F,'findActive','((List.range fr.B).map fr.K)','((List.range fr.B).map fun _ => fr.K 0)','C34','intrinsics of the first batch element')
M('fus-active-L',F,'findActive','if fr.L ≠ 1 then (.error valueError, pc)','if fr.L = 0 then (.error valueError, pc)','C34','several frames accepted')
M('fus-active-B',F,'findActive','else if fr.B ≠ pc.B then (.error valueError, pc)\n    ','','C34','batch size unchecked (the batch operand check remains)')
M('fus-close',F,'arePointsClose','nrm (p.sub q) < distTh','nrm (p.sub q) ≤ distTh','C35','boundary included')
M('fus-close-flip',F,'arePointsClose','nrm (p.sub q) < distTh','nrm (p.sub q) > distTh','C35','far points')
M('fus-normals',F,'areNormalsSimilar','m.dot n > dotTh','m.dot n ≥ dotTh','C35','boundary included')
M('fus-scatter-frame',F,'scatter','some r => f r.b 0 r.h r.w','some r => f r.b 0 r.w r.h','C35 C37','row and column swapped in the gather')
M('fus-scatter-first',F,'lastAt','rows.reverse.find?','rows.find?','','first instead of last write wins (differs only for tables with duplicate (b,n), which the pipeline never produces)')
M('fus-lastat-n',F,'lastAt','r.b = b ∧ r.n = n','r.n = n','C37 C38','batch index ignored')
M('fus-similar-or',F,'similarAt','distTh &&','distTh ||','C35','either criterion suffices')
M('fus-similar-local',F,'similarAt','scatter rows fr.gv b n','scatter rows fr.v b n','C35','compares camera-space vertices')
M('fus-similar-gn',F,'similarAt','scatter rows fr.gn b n','scatter rows fr.ln b n','C35','compares camera-space normals')
M('fus-similar-filter',F,'findSimilar','(.ok (rows.filter keep, rows.map keep), pc)','(.ok (rows.filter (fun r => !keep r), rows.map keep), pc)','C35','complement kept')
M('fus-similar-hn',F,'findSimilar','if !hn then (.error valueError, pc)\n      else ','','C35','normals not required')
M('fus-similar-range',F,'rowsInRange','decide (r.n < N) &&','true &&','C35','out-of-range point indices accepted')
M('fus-similar-rangeH',F,'rowsInRange','decide (r.h < fr.H) && decide (r.w < fr.W)','decide (r.h < fr.W) && decide (r.w < fr.H)','C35','rows checked against the width')
M('fus-keyle-dist',F,'keyLE','(x.dist < y.dist ∨','(x.dist > y.dist ∨','C36','farthest point preferred')
M('fus-keyle-conf',F,'keyLE','(x.invc < y.invc ∨','(x.invc > y.invc ∨','C36','least confident preferred')
M('fus-keyle-noconf',F,'keyLE','(x.invc < y.invc ∨ x.invc = y.invc ∧\n    (x.dist','(False ∨\n    (x.dist','C36','confidence ignored')
M('fus-keyof-conf',F,'keyOf','1 / ((cell f r.b r.n).getD 0 0 + 1 / 10 ^ 20)','((cell f r.b r.n).getD 0 0 + 1 / 10 ^ 20)','C36','confidence not inverted')
M('fus-keyof-v',F,'keyOf','.sub (fr.gv r.b 0 r.h r.w)','.sub (fr.v r.b 0 r.h r.w)','C36','distance to the camera-space vertex')
M('fus-keyof-n',F,'keyOf','f32 r.n⟩','f32 r.b⟩','C36 C57','point index lost')
M('fus-f32',F,'f32','if n < 2 ^ 24 then n','if n < 2 ^ 11 then n','C57','half-precision integers')
M('fus-f32-excess',F,'excess','n.log2 - 23','n.log2 - 22','C57','rounds to 23 bits')
M('fus-keepfirst-h',F,'keepFirst','if k.b = j.b ∧ k.h = j.h ∧ k.w = j.w then','if k.b = j.b ∧ k.h = j.h then','C36','one match per image row')
M('fus-keepfirst-b',F,'keepFirst','if k.b = j.b ∧ k.h = j.h ∧ k.w = j.w then','if k.h = j.h ∧ k.w = j.w then','C36','batch index ignored')
M('fus-keepfirst-all',F,'keepFirst','then keepFirst (some k) ks else','then k :: keepFirst (some k) ks else','C36','nothing filtered')
M('fus-best-hw',F,'bestRows','⟨k.b, k.n, k.h, k.w⟩','⟨k.b, k.n, k.w, k.h⟩','C36','columns swapped')
M('fus-best-nosort',F,'bestRows','(ks.insertionSort keyLE).dedup','ks.dedup','C36','not sorted')
M('fus-corr-skip',F,'findCorrespondences','| (.ok (rows, _), pc) => findBest pc fr rows','| (.ok (_, _), pc) => findBest pc fr rows','C38','similarity filter ignored')
M('fus-merge-w',F,'mergeRow','(coef c k * x + a * comp q k) * (1 / guard0 (coef c k + a))','(coef c k * x + a * comp q k) * (1 / guard0 (coef c k))','C37','normalised by the old confidence')
M('fus-merge-sum',F,'mergeRow','(coef c k * x + a * comp q k)','(x + a * comp q k)','C37','old value not weighted')
M('fus-merge-swap',F,'mergeRow','(coef c k * x + a * comp q k)','(a * x + coef c k * comp q k)','C37','weights swapped')
M('fus-guard',F,'guard0','if c = 0 then 1 else c','if c = 0 then 0 else c','','1/0 = 0 in Lean (invisible)')
M('fus-merge-conf',F,'mergeStep','r.map fun c => c + a b n','r.map fun c => c','C37','confidence not increased')
M('fus-merge-normals',F,'mergeStep','(scatter rows fr.gn b n) r) (nn.getD [])','(scatter rows fr.gv b n) r) (nn.getD [])','C37','normals averaged with vertices')
M('fus-merge-colors',F,'mergeStep','(scatter rows fr.rgb b n) r) (cc.getD [])','(scatter rows fr.rgb b n) r) (nn.getD [])','C37','colours overwritten by normals')
M('fus-merge-skipcolor',F,'mergeStep','               (.colors, mapRows (fun b n r => mergeRow (cell f b n) (a b n) (scatter rows fr.rgb b n) r) (cc.getD [])),\n','','C37','colours not updated')
M('fus-merge-alpha',F,'scatterAl','al (fr.v r.b 0 r.h r.w)','al (fr.gv r.b 0 r.h r.w)','C37','confidence computed in world space')
M('fus-newmask-valid',F,'newMask',') && fr.valid b l h w',')','C38 C42','missing-depth pixels added')
M('fus-newmask-match',F,'newMask','!(l == 0 && rows.any fun r => r.b = b ∧ r.h = h ∧ r.w = w) && fr.valid','fr.valid','C38','matched pixels added again')
M('fus-newmask-b',F,'newMask','r.b = b ∧ r.h = h ∧ r.w = w','r.h = h ∧ r.w = w','C38','a match in one batch element suppresses all')
M('fus-picked-b',F,'picked','(f b x.1 x.2.1 x.2.2)','(f 0 x.1 x.2.1 x.2.2)','C38 C41','measurements of the first batch element')
M('fus-picked-hw',F,'picked','(f b x.1 x.2.1 x.2.2)','(f b x.1 x.2.2 x.2.1)','C38 C41','row and column swapped')
M('fus-pickedal',F,'pickedAl','[al (fr.v b x.1 x.2.1 x.2.2)]','[al (fr.gv b x.1 x.2.1 x.2.2)]','C38','new confidences computed in world space')
M('fus-newarg',F,'newArg','| .colors => some (picked fr m fr.rgb)\n  | .features => some (pickedAl al fr m)','| .colors => some (picked fr m fr.gn)\n  | .features => some (pickedAl al fr m)','C38','colours replaced by normals')
M('fus-pixels',F,'pixels','(List.range H).flatMap fun h => (List.range W)','(List.range (H-1)).flatMap fun h => (List.range W)','C38 C41','last image row lost')
M('fus-cloneappend-inplace',F,'cloneAppend','if inplace then match','if !inplace then match','C39','inplace flag inverted')
M('fus-cloneappend-none',F,'cloneAppend','| (.ok (), c, _) => (.ok c, pc)','| (.ok (), _, _) => (.ok pc, pc)','C39 C41','inplace=False returns the old map')
M('fus-require',F,'fuseWithMap','requireAll [.normals, .colors, .features] pc','requireAll [.normals, .colors] pc','C37','features not required')
M('fus-fuse-use',F,'fuseWithMap','let use := h && decide (rows.length ≠ 0)','let use := h && decide (rows.length > 1)','C37 C38','a single match is ignored')
M('fus-fuse-dup',F,'fuseWithMap','newMask fr (if use then rows else [])','newMask fr []','C38','matched pixels both merged and appended')
M('fus-frame-L',F,'pointcloudsFromRgbd','if fr.L ≠ 1 then','if fr.L < 1 then','C41','several frames accepted')
M('fus-frame-glob',F,'frameArg','| .normals => some (picked fr m (if glob then fr.gn else fr.ln))','| .normals => some (picked fr m fr.ln)','C41','local normals in the world map')
M('fus-agg-glob',F,'updateMapAggregate','pointcloudsFromRgbd fr true true','pointcloudsFromRgbd fr false true','C41','camera-space points in the map')
M('fus-agg-filter',F,'updateMapAggregate','pointcloudsFromRgbd fr true true','pointcloudsFromRgbd fr true false','C41','missing depth kept')
M('fus-upd-th',F,'updateMapFusion','findCorrespondences nrm pc fr distTh dotTh','findCorrespondences nrm pc fr dotTh distTh','C38','thresholds swapped')
M('fus-upd-rows',F,'updateMapFusion','| (.ok rows, pc) => fuseWithMap al pc fr rows inplace','| (.ok _, pc) => fuseWithMap al pc fr [] inplace','C38','correspondences dropped')
M('fus-upd-inplace',F,'updateMapFusion','fuseWithMap al pc fr rows inplace','fuseWithMap al pc fr rows true','C39','always in place')
