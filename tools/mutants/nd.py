G='Nd/Model.lean'
M('nd-unsq3',G,'applyMats','matmul (mat.unsqueeze 2) (pts.unsqueeze 0)','matmul (mat.unsqueeze 3) (pts.unsqueeze 0)','C108','unsqueeze(-4) instead of unsqueeze(-3): matrices paired with the wrong dimension')
M('nd-noexp',G,'applyMats','if mat.rank = 2 ∧ pts.rank > 2 then expand (pts.rank - mat.rank) mat else mat','if mat.rank = 2 ∧ pts.rank > 2 then expand (pts.rank - mat.rank + 1) mat else mat','C108','one dimension too many expanded')
M('nd-swapdim',G,'projectPoints','checkShapes 3 4 cam proj','checkShapes 2 4 cam proj','C108','points with 2 coordinates accepted by the check, 4 refused')
M('nd-batch',G,'checkShapes','  else if mat.rank > 2 ∧ mat.dims.getLast? ≠ pts.dims.getLast? then .error .valueError\n','','C108','batch sizes not compared: a batch of one matrix is broadcast')
M('nd-rank',G,'checkShapes','  else if mat.rank > 2 ∧ mat.rank ≠ pts.rank then .error .valueError\n','','C108','number of dimensions not compared')
M('nd-sq',G,'checkShapes','mat.dims[0]? ≠ some n ∨ mat.dims[1]? ≠ some n','mat.dims[0]? ≠ some n ∧ mat.dims[1]? ≠ some n','C108','non-square matrices accepted')
M('nd-last',G,'checkShapes','pts.dims.head? ≠ some lo ∧ pts.dims.head? ≠ some (lo + 1)','pts.dims.head? ≠ some lo','C108','homogeneous points refused')
M('nd-homo',G,'projectPoints','(if cam.dims.head? = some 3 then homogenizePoints cam else .ok cam)','(.ok cam)','C108','points not homogenised')
M('nd-z',G,'divideByZ','match pts.select 2 with','match pts.select 3 with','C108','divides by the fourth coordinate')
M('nd-guard',G,'divideByZ','if c ≠ 0 then c else 1','c','C108','zero depth not guarded')
M('nd-stack',G,'divideByZ','| .ok v => stack2 u v','| .ok v => stack2 v u','C108','u and v swapped')
M('nd-depth',G,'unprojectPoints','if px.dims.tail ≠ depths.dims then .error .valueError else\n','','C108','shape of the depths not checked')
M('nd-depthu',G,'unprojectPoints','zipT (· * ·) p (depths.unsqueeze 0)','zipT (· * ·) p (depths.unsqueeze 1)','C108','depths.unsqueeze(-2)')
M('nd-pad',G,'Tensor.padOne','if k < d then t.get (k :: is) else 1','if k ≤ d then t.get (k :: is) else 1','C108','the padding reads beyond the point')
M('nd-uhw',G,'unhomogenizePoints','pts.get ((d - 1) :: is)','pts.get (0 :: is)','C108','divides by the first coordinate')
M('nd-uheps',G,'unhomogenizePoints','if eps < |x| then 1 / x else 1','if eps < x then 1 / x else 1','C108','absolute value dropped')
M('nd-uhslice',G,'unhomogenizePoints','(pts.sliceTo (d - 1))','(pts.sliceTo d)','C108','the last coordinate is kept')
M('nd-kcx',G,'inverseIntrinsics','let cx := K.get (2 :: 0 :: is)','let cx := K.get (2 :: 1 :: is)','C108','cx read from the second row')
M('nd-kone',G,'inverseIntrinsics','if j = c - 1 ∧ k = r - 1 then 1\n          else ','','C108','the last diagonal entry is not set (4 x 4)')
M('nd-kshape',G,'inverseIntrinsics','(c = 3 ∧ r = 3) ∨ (c = 4 ∧ r = 4)','c = 3 ∨ c = 4','C108','non-square intrinsics accepted')
M('nd-t3sq',G,'transformPts3d','else matmul (expand 1 t) (h.unsqueeze 0)) with','else\n          match matmul (expand 1 t) (h.unsqueeze 0) with\n          | .error e => .error e\n          | .ok p => .ok p.squeezeLast) with','C108','the missing squeeze is added (a repair)')
M('nd-t3r',G,'transformPts3d','if h.rank = 4 then','if h.rank = 3 then','C108','three-dimensional points handled instead of four')
M('nd-t3sl',G,'transformPts3d','q.sliceTo 3','q.sliceTo 2','C108','only two coordinates returned')
M('nd-kfu',G,'transformPtsNdKF','tform.unsqueeze (tform.rank - 1)','tform.unsqueeze 2','C108','unsqueeze(-3) instead of unsqueeze(1): images handled by batch element (same for three dimensions)')
M('nd-kfu0',G,'transformPtsNdKF','tform.unsqueeze (tform.rank - 1)','tform.unsqueeze tform.rank','C108','unsqueeze(0) instead of unsqueeze(1)')
M('nd-kfb',G,'transformPtsNdKF','if b ≠ b\' then .error .valueError\n    else ','','C108','batch sizes not compared (same error kind not needed: other shapes are then accepted)')
M('nd-c2p3',G,'cam2pixel','  else if cam.rank ≠ 4 then .error .valueError\n','','C108','three-dimensional points reach the transform')
M('nd-c2pa',G,'cam2pixel','else if cam.dims.head? ≠ some 3 then .error .assertion\n','','C108','homogeneous points accepted')
M('nd-p2cperm',G,'permute0231','t.get [iw, ih, ic, ib]','t.get [ih, iw, ic, ib]','C108','rows and columns of the depth swapped')
M('nd-p2ck',G,'pixel2cam','else if kinv.dims ≠ [4, 4] then .error .assertion','else if kinv.dims.getLast? ≠ some 4 then .error .assertion','C108','only the first size of the intrinsics is asserted (the transform still checks)')
M('nd-ckf',G,'cam2pixelKF','  else if cam.dims.head? ≠ some 3 then .error .assertion\n','','C108','last size not asserted (the transform still compares it with the matrix)')
M('nd-quat',G,'quatToRot','rot (fun k => q.get (k :: unflatten ds n)) (3 * r + c)','rot (fun k => q.get (k :: unflatten ds n)) (3 * c + r)','C108','transposed matrices')
M('nd-quat1',G,'quatToRot','    else if ds = [] then\n      .ok ⟨[3, 3], fun i => match i with\n        | [c, r] => rot (fun k => q.get [k]) (3 * r + c)\n        | _ => 0⟩\n','','C108','no squeeze for one quaternion')
M('nd-unflat',G,'unflatten','n % d :: unflatten ds (n / d)','n / d :: unflatten ds (n % d)','C108','column-major reading order')
M('nd-bcast',G,'Tensor.bc','if a = b ∨ a = 1 ∨ b = 1 then','if a = b ∨ a = 1 then','C108','only the first argument is broadcast')
M('nd-bidx',G,'Tensor.bidx','(if d = 1 then 0 else i) :: bidx s is','i :: bidx s is','C108','a broadcast tensor is read out of range')
