G='Axis/Model.lean'
M('ax-pos',G,'axis','some (n - 1 - dim.toNat)','some dim.toNat','C109','dim counted from the wrong end')
M('ax-neg',G,'axis','some (-dim - 1).toNat','some (-dim).toNat','C109','negative dims off by one')
M('ax-range',G,'axis','if dim < n then','if dim ≤ n then','C109','dim = rank accepted')
M('ax-range2',G,'axis','else if -(n : ℤ) ≤ dim then','else if -(n : ℤ) < dim then','C109','dim = -rank refused')
M('ax-red',G,'reduce','t.get (i.insertIdx k j)','t.get (j :: i)','C109','always reads the last dimension')
M('ax-keep',G,'reduceKeep','t.dims.set k 1','t.dims.eraseIdx k','C109','keepdim ignored in the shape')
M('ax-keepget',G,'reduceKeep','t.get (i.set k j)','t.get (i.insertIdx k j)','C109','keepdim reads a shifted index')
M('ax-sum',G,'sum3','v 0 + v 1 + v 2','v 0 + v 1','C109','z is ignored')
M('ax-fl',G,'getAlpha','if epsIsFloat = false then .error .typeError else\n','','C109','type of eps not checked')
M('ax-sg',G,'getAlpha','if t.rank ≠ 0 then .error .valueError else go (t.get [])','go (t.get [])','C109','rank of sigma not checked')
M('ax-sg1',G,'getAlpha','if t.rank ≠ 0 then','if t.rank > 1 then','C109','one-element sigma accepted')
M('ax-sz',G,'getAlpha','if points.dims[k]? ≠ some 3 then .error .valueError else\n','','C109','size of the dimension not checked')
M('ax-sig2',G,'getAlpha','2 * s ^ 2','s ^ 2','C109','factor 2 dropped')
M('ax-clamp',G,'getAlpha','(max (Real.exp (-x / (2 * s ^ 2))) eps)','(Real.exp (-x / (2 * s ^ 2)))','C109','lower clamp dropped')
M('ax-keepsw',G,'getAlpha','if keepdim then reduceKeep k sq points else reduce k sq points','if keepdim then reduce k sq points else reduceKeep k sq points','C109','keepdim inverted')
M('ax-shape',G,'checkPair','if a.dims ≠ b.dims then .error .valueError else\n','','C109','shapes not compared')
M('ax-three',G,'checkPair','if a.dims[k]? ≠ some 3 then .error .valueError else .ok k','.ok k','C109','size of the dimension not checked in the tests')
M('ax-sub',G,'arePointsClose','zip (· - ·) a b','zip (· + ·) a b','C109','sum instead of difference')
M('ax-lt',G,'arePointsClose','decide (n.get i < distTh)','decide (n.get i ≤ distTh)','C109','threshold inclusive')
M('ax-gt',G,'areNormalsSimilar','decide (dotTh < d.get i)','decide (dotTh ≤ d.get i)','C109','threshold inclusive')
M('ax-empty',G,'areNormalsSimilar','if 0 ∈ d.dims then .error .runtimeError\n    else ','','C109','empty tensors accepted')
M('ax-warn',G,'areNormalsSimilar','1001 / 1000 < d.get i','1 < d.get i','C109','warns from 1 on')
M('ax-norm',G,'pixelNorm','if j = 0 then (height : ℝ) else width','if j = 0 then (width : ℝ) else height','C109','height and width swapped')
M('ax-norm2',G,'normalizePixelCoords','fun x => x - 1','fun x => x','C109','range [0, 2]')
M('ax-unn',G,'unnormalizePixelCoords','t.mapT fun x => x + 1','t.mapT fun x => x','C109','offset dropped')
M('ax-n2',G,'normalizePixelCoords','if d ≠ 2 then .error .valueError\n    else ','','C109','last size not checked')
H='Axis/Mats.lean'
M('mt-block',H,'block','⟨min 3 c :: min 3 r :: ds, t.get⟩','⟨min 4 c :: min 3 r :: ds, t.get⟩','C110','four columns of the rotation')
M('mt-col',H,'col3','t.get (3 :: i)','t.get (2 :: i)','C110','the third column is taken for the translation')
M('mt-tr',H,'transposeT','t.get (b :: a :: is)','t.get (a :: b :: is)','C110','rotation not transposed')
M('mt-neg',H,'inverseTransfom3d','mm (rinv.mapT (- ·)) tvec','mm rinv tvec','C110','sign of the inverse translation')
M('mt-inv',H,'inverseTransfom3d','let rinv := transposeT (block t)','let rinv := block t','C110','rotation not transposed')
M('mt-mm',H,'mm','a.get (l :: r :: is) * b.get [l]','a.get (r :: l :: is) * b.get [l]','C110','vector multiplied from the left')
M('mt-assign',H,'assignable','| v :: vs, [] => v = 1 && assignable vs []','| _ :: _, [] => true','C110','surplus dimensions accepted: batches of three would succeed')
M('mt-assign2',H,'assignable','(v = s || v = 1) && assignable vs ss','assignable vs ss','C110','sizes not compared')
M('mt-corner',H,'setCorner','a = c - 1 ∧ b = r - 1','a = 3 ∧ b = 3','C110','element (3, 3) instead of the last one')
M('mt-corner2',H,'pack','| .ok b => setCorner b','| .ok b => .ok b','C110','the corner is not set')
M('mt-setcol',H,'setCol3','if a = 3 ∧ b < 3 then','if a = 3 ∧ b < 2 then','C110','z of the translation is not set')
M('mt-guard',H,'guardRank','if t.rank = 2 ∨ t.rank = 3 then','if t.rank = 2 then','C110','the guard refuses batches (the error is then another one)')
M('mt-guard2',H,'guardRank','.error .typeError','.error .valueError','C110','the guard raises what it was written for')
M('mt-cmp',H,'composeTransforms3d','match mm (block t) t2 with','match mm (block u) t2 with','C110','wrong rotation applied')
M('mt-cmp2',H,'composeTransforms3d','zipT (· + ·) v t1','zipT (· + ·) v t2','C110','wrong translation added')
M('mt-cmp3',H,'composeTransforms3d','if t.dims ≠ u.dims then .error .assertion else\n','','C110','assertion removed')
M('mt-rel',H,'relativeTransform3d','composeTransforms3d i u','composeTransforms3d u i','C110','order of the composition')
M('mt-oblock',H,'outerBlock','.modify (t.rank - 2) (min 3)','','C110','three rows and four columns')
M('mt-ocol',H,'outerCol','i.insertIdx (t.rank - 2) 3','i.insertIdx (t.rank - 1) 3','C110','the last row is taken for the translation')
M('mt-ck1',H,'checkCloud','if p.rank ≠ 2 then .error .valueError\n  else ','','C110','rank of the cloud not checked')
M('mt-ck2',H,'checkCloud','t.dims.take 2 ≠ [4, 4]','t.dims ≠ [4, 4]','C110','batches refused by the check')
M('mt-cl',H,'transformPointcloud','zipT (· + ·) q','zipT (· - ·) q','C110','translation subtracted')
M('mt-cltr',H,'transformPointcloud','| .ok q => .ok (transposeT q)','| .ok q => .ok q','C110','result not transposed back')
M('mt-nm',H,'transformNormals','mm (outerBlock t) (transposeT p)','mm (transposeT (outerBlock t)) (transposeT p)','C110','inverse rotation applied to the normals')
