F='Icp/Model.lean'
M('icp-normal-damp',F,'normalMatrix','+ damp •','- damp •','C52','damping subtracted')
M('icp-normal-nodamp',F,'normalMatrix','(toMat A).transpose * toMat A + damp • (1 : Matrix (Fin A.cols) (Fin A.cols) α)','(toMat A).transpose * toMat A','C52','damping ignored')
M('icp-solve-cols',F,'solveLinearSystem','if b.cols ≠ 1 then .error .valueError\n  else ','','C52','b with several columns accepted')
M('icp-solve-rows',F,'solveLinearSystem','if A.rows.length ≠ b.rows.length then','if A.rows.length < b.rows.length then','C52','too short b accepted')
M('icp-solve-rhs',F,'solveLinearSystem','(toMat A).transpose.mulVec (colVec A.rows.length b)','-((toMat A).transpose.mulVec (colVec A.rows.length b))','C52','sign of the solution')
M('icp-nndist',F,'nnDist','(s.sub (tgt.getD (nn tgt s) V3.zero)).normSq','(s.add (tgt.getD (nn tgt s) V3.zero)).normSq','C53','distance of s and -d')
M('icp-keeps-le',F,'keeps','decide (nnDist nn tgt s < t)','decide (nnDist nn tgt s ≤ t)','C53','threshold inclusive')
M('icp-keeps-flip',F,'keeps','decide (nnDist nn tgt s < t)','decide (nnDist nn tgt s > t)','C53','far pairs kept')
M('icp-keeps-none',F,'keeps','| none => true','| none => false','C53','no threshold drops everything')
M('icp-rowA-cross',F,'rowA','n.z * s.y - n.y * s.z','n.y * s.z - n.z * s.y','C53','sign of the first rotation column')
M('icp-rowA-cross2',F,'rowA','n.y * s.x - n.x * s.y]','n.y * s.x + n.x * s.y]','C53','sign inside the third rotation column')
M('icp-rowA-order',F,'rowA','[n.x, n.y, n.z, n.z * s.y - n.y * s.z,','[n.z * s.y - n.y * s.z, n.y, n.z, n.x,','C53','columns in the wrong order')
M('icp-entryB',F,'entryB','n.x * (d.x - s.x)','n.x * (s.x - d.x)','C53','sign of the residual')
M('icp-gn-check',F,'gaussNewton','if tgt.length ≠ nrm.length then','if tgt.length > nrm.length then','C53','more normals than points accepted')
M('icp-gn-normal',F,'gaussNewton','rowA s (nrm.getD (nn tgt s) V3.zero)','rowA s (nrm.getD 0 V3.zero)','C53','always the first normal')
M('icp-gn-idx',F,'gaussNewton','kept.map (nn tgt))','src.map (nn tgt))','C53','indices of dropped points returned')
M('icp-sqerr',F,'sqErr','r.getD 0 0 * r.getD 0 0','r.getD 0 0','C54','sum of residuals, not of squares')
M('icp-xi-swap',F,'xiV','(x.rows.getD 0 []).getD 0 0','(x.rows.getD 3 []).getD 0 0','C54','translation read from the rotation part')
M('icp-look-pose',F,'lookahead','Geom.transformPointcloud (Geom.se3Exp eps (xiV xi) (xiW xi)) s.src','Geom.transformPointcloud (Geom.se3Exp eps (xiW xi) (xiV xi)) s.src','C54','translation and rotation parts swapped')
M('icp-look-err',F,'lookahead','.ok (xi, sqErr b, sqErr b\', one, idx)','.ok (xi, sqErr b, sqErr b, one, idx)','C54','look-ahead error is the old error')
M('icp-look-damp',F,'lookahead','solveLinearSystem A b s.damp','solveLinearSystem A b 0','C54','solved without damping')
M('icp-step-flip',F,'icpStep','if newErr < err then','if newErr > err then','C54','accepts error-increasing steps')
M('icp-step-le',F,'icpStep','if newErr < err then','if newErr ≤ err then','C54','accepts steps that do not reduce the error')
M('icp-step-order',F,'icpStep','(Geom.se3Exp eps (xiV xi) (xiW xi)).mul s.T','s.T.mul (Geom.se3Exp eps (xiV xi) (xiW xi))','C54','transform accumulated on the wrong side')
M('icp-step-src',F,'icpStep','.ok ⟨one, s.damp / 2','.ok ⟨s.src, s.damp / 2','C54','cloud not moved after an accepted step')
M('icp-step-damp',F,'icpStep','⟨one, s.damp / 2,','⟨one, s.damp * 2,','C54','damping increased after success')
M('icp-step-dampfail',F,'icpStep','.ok ⟨s.src, s.damp * 2,','.ok ⟨s.src, s.damp,','C54','damping not increased after failure')
M('icp-finish',F,'finish','| some i => .ok (s.T, i)','| some i => .ok (⟨s.T.R.transpose, s.T.t, s.T.b, s.T.s⟩, i)','C54','transposed rotation returned')
M('icp-start',F,'start','⟨Geom.transformPointcloud T0 src, damp, T0, none⟩','⟨src, damp, T0, none⟩','C54','initial transform not applied')
M('icp-start-T',F,'start','⟨Geom.transformPointcloud T0 src, damp, T0, none⟩','⟨Geom.transformPointcloud T0 src, damp, M4.one, none⟩','C54','initial transform not accumulated')
M('icp-loop',F,'loop','| n + 1, s => match f s with\n    | .error e => .error e\n    | .ok s => loop f n s','| n + 1, s => match f s with\n    | .error e => .error e\n    | .ok _ => loop f n s','C54','iterations restart from the same state')
M('icp-niter',F,'pointToPlaneICP','numiters.toNat','(numiters.toNat + 1)','C54','one iteration too many')
M('icp-none',F,'pointToPlaneICP','| none => .error .attributeError','| none => finish (loop (icpStep eps nn th tgt nrm) numiters.toNat (start src damp M4.one))','','the documented default (the code fails instead)')
M('icp-clamp',F,'clamp70','min (max x (-70)) 70','max x (-70)','C55','upper clamp dropped')
M('icp-damp-sign',F,'dampFactor','Real.exp (-B * e)','Real.exp (B * e)','C55','damping decreases with the error change')
M('icp-damp-min',F,'dampFactor','1 / lmax + (lmax - 1 / lmax)','(lmax - 1 / lmax)','C55','lower bound of the factor dropped')
M('icp-weight-nu',F,'stepWeight','^ (1 / nu)','^ nu','','other exponent: same bounds; C55 states bounds and monotonicity only')
M('icp-weight-sign',F,'stepWeight','Real.exp (-B2 * e)','Real.exp (B2 * e)','C55','weight decreases')
M('icp-grad-T',F,'gradStep','R.mul s.T','s.T.mul R','C55','gradICP: accumulated on the wrong side')
M('icp-grad-w',F,'gradStep','((xiW xi).smul w)','(xiW xi)','C55','rotation not weighted')
M('icp-grad-diff',F,'gradStep','clamp70 (newErr - err)','clamp70 (err - newErr)','C55','error difference negated')
M('icp-strided',F,'strided','(n + ds - 1) / ds','n / ds','C56','last grid line lost')
M('icp-ds-mask',F,'dsPicked','(fr.valid b)','(fr.valid 0)','C56','validity of the first batch element')
M('icp-ds-col',F,'dsArg','| .colors => some (dsPicked fr ds fr.rgb)','| .colors => some (dsPicked fr 1 fr.rgb)','C56','colours not downsampled')
M('icp-ds-local',F,'dsArg','| .normals => some (dsPicked fr ds fr.gn)','| .normals => some (dsPicked fr ds fr.ln)','C56','local normals')
M('icp-ds-L',F,'downsampleRgbd','if fr.L ≠ 1 then .error .valueError\n  else ','','C56','several frames accepted')
M('icp-ds-step',F,'downsampleRgbd','if ds ≤ 0 then','if ds < 0 then','C56','ratio 0 accepted')
M('icp-gather-b',F,'gather','(rows.filter fun r => r.b = b).map fun r','rows.map fun r','C56','rows of all batch elements')
M('icp-grid-h',F,'gridRows','(r.h : Int) % ds = 0','(r.n : Int) % ds = 0','C56','point index instead of pixel row')
M('icp-grid-w',F,'gridRows','(rows.filter fun r => (r.h : Int) % ds = 0).filter fun r => (r.w : Int) % ds = 0','(rows.filter fun r => (r.h : Int) % ds = 0)','C56','columns not downsampled')
M('icp-dsmap-swap',F,'dsMapArg','| .normals => Nn\n  | .colors => C','| .normals => C\n  | .colors => Nn','C56','normals and colours swapped')
M('icp-dsmap-all',F,'downsamplePointclouds','match gatherOpt pc.B n rows with','match gatherOpt pc.B n [] with','C56','normals empty')
M('icp-prov-B',F,'provide','if maps.B ≠ frames.B then','if maps.B > frames.B then','C63','batch sizes unchecked one way')
M('icp-prov-swap',F,'provide','icp (vecs (P.getD b ⟨[], 0⟩)) (vecs (Q.getD b ⟨[], 0⟩))','icp (vecs (Q.getD b ⟨[], 0⟩)) (vecs (P.getD b ⟨[], 0⟩))','C63','source and target swapped')
M('icp-prov-b',F,'provide','(vecs (Nn.getD b ⟨[], 0⟩))','(vecs (Nn.getD 0 ⟨[], 0⟩))','C63','normals of the first batch element')
M('icp-gt-inv',F,'groundTruthProvide','false (p1 b 0) (p2 b 0)','false (p2 b 0) (p1 b 0)','C63','relative transform in the wrong direction')
M('icp-gt-L',F,'groundTruthProvide','else if L2 ≠ 1 then .error .valueError\n      ','','C63','second frame sequence length unchecked')
M('icp-collect',F,'collect','.ok (x :: xs)','.ok (xs ++ [x])','C63','results in reversed order')
