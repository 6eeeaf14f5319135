F='Geom/Model.lean'; R='Geom/ModelReal.lean'
M('geom-homog-zero',F,'homogenize1','p ++ [1]','p ++ [0]','C17','padding with 0 instead of 1')
M('geom-unhomog-ge',F,'unhomogenize1','if |w| > eps then 1 / w else 1','if w > eps then 1 / w else 1','C17','sign of w not ignored: negative w treated as infinity')
M('geom-unhomog-else',F,'unhomogenize1','if |w| > eps then 1 / w else 1','if |w| > eps then 1 / w else 0','C17','points at infinity collapse to 0')
M('geom-unhomog-noscale',F,'unhomogenize1','p.dropLast.map (scale * ·)','p.dropLast','C17','division dropped')
M('geom-rank',F,'homogenizePoints','if dim < 2 then .error .valueError else .ok (pts.map homogenize1)','if dim < 1 then .error .valueError else .ok (pts.map homogenize1)','C17','rank check off by one')
M('geom-guardz',F,'guardZ','if z ≠ 0 then z else 1','if z > 0 then z else 1','C18','points behind the camera not divided by depth')
M('geom-project-w',F,'projectPoint','(q.v.x / guardZ q.v.z, q.v.y / guardZ q.v.z)','(q.v.x / guardZ q.w, q.v.y / guardZ q.w)','C18','divides by w instead of z')
M('geom-project-swap',F,'projectPoint','(q.v.x / guardZ q.v.z, q.v.y / guardZ q.v.z)','(q.v.y / guardZ q.v.z, q.v.x / guardZ q.v.z)','C18','u and v swapped')
M('geom-project-batch',F,'projectPoints','List.zipWith (fun P c => c.map (projectPoint P)) Ps clouds','List.zipWith (fun P c => c.map (projectPoint P)) Ps.reverse clouds','C18','matrices paired with the wrong batch element')
M('geom-project-batchcheck',F,'projectPoints','if Ps.length ≠ clouds.length then .error .valueError','if Ps.length > clouds.length then .error .valueError','C18','batch size check one-sided')
M('geom-unproject-depth',F,'unprojectPoint','(Kinv.mulVec h).smul depth','(Kinv.mulVec (h.smul depth))','','equivalent: scaling before the multiplication (sanity check, should break no claim)')
M('geom-unproject-homog',F,'unprojectPoint','| .inl (u, v) => ⟨u, v, 1⟩','| .inl (u, v) => ⟨u, v, 0⟩','C18','pixels homogenised with 0')
M('geom-unproject-len',F,'unprojectPoints','if pxs.length ≠ depths.length then .error .valueError','if pxs.length < depths.length then .error .valueError','C18','missing depths silently truncate the cloud',tightened=['unproject_points_cloud'])
M('geom-invK-sign',F,'inverseIntrinsics3','0, -1 * cx / (fx + eps)⟩','0, cx / (fx + eps)⟩','C19','sign of the principal point lost')
M('geom-invK-swap',F,'inverseIntrinsics3','  let cy := K.r1.z','  let cy := K.r0.z','C19','cy read from the wrong row')
M('geom-invK-fy',F,'inverseIntrinsics3','-1 * cy / (fy + eps)','-1 * cy / (fx + eps)','C19','cy divided by fx')
M('geom-invK4',F,'inverseIntrinsics4','⟨inverseIntrinsics3 eps K.R, V3.zero, V3.zero, 1⟩','⟨inverseIntrinsics3 eps K.R, V3.zero, V3.zero, 0⟩','C19','4x4 corner left 0')
M('geom-invT-t',F,'inverseTransform1','T.R.transpose.neg.mulVec T.t','T.R.neg.mulVec T.t','C21','translation of the inverse uses R instead of its transpose')
M('geom-invT-sign',F,'inverseTransform1','T.R.transpose.neg.mulVec T.t','T.R.transpose.mulVec T.t','C21','sign of the inverse translation')
M('geom-compose-order',F,'composeTransforms1','⟨T1.R.mul T2.R, (T1.R.mulVec T2.t).add T1.t','⟨T2.R.mul T1.R, (T2.R.mulVec T1.t).add T2.t','C21','composition order swapped')
M('geom-compose-t',F,'composeTransforms1','(T1.R.mulVec T2.t).add T1.t','T2.t.add T1.t','C21','translations added without rotation')
M('geom-rel-inv',F,'relativeTransform3d','  let Ai ← inverseTransform3d A\n  composeTransforms3d Ai B','  let Bi ← inverseTransform3d B\n  composeTransforms3d Bi A','C21','relative transform in the wrong direction')
M('geom-relative-orth',F,'relativeTransformation','if orthogonal then inverseTransform1 T01 else inv T01','if orthogonal then inv T01 else inverseTransform1 T01','C21','orthogonal flag inverted')
M('geom-relative-arg',F,'relativeTransformation','inverseTransform1 T01 else inv T01) T02','inverseTransform1 T01 else inv T02) T02','C21','inverts the wrong argument')
M('geom-tpc-not',F,'transformPointcloud','pts.map fun p => (T.R.mulVec p).add T.t','pts.map fun p => T.R.mulVec p','C22','translation dropped')
M('geom-tpc-trans',F,'transformPointcloud','(T.R.mulVec p).add T.t','(T.R.transpose.mulVec p).add T.t','C22','rotation transposed')
M('geom-tn-add',F,'transformNormals','ns.map T.R.mulVec','ns.map fun n => (T.R.mulVec n).add T.t','C22','normals translated')
M('geom-tpts3d-dim',F,'transformPts3d','if dim = 4 then','if dim = 3 then','C22','squeeze for the wrong rank')
M('geom-nd-w',F,'transformPtsNdKF','    let q := T.mulVec ⟨p, 1⟩\n    unhomogenize1','    let q := T.mulVec ⟨p, 0⟩\n    unhomogenize1','C22','w = 0: translation ignored')
M('geom-normpix',F,'normalizePixel','2 / ((width : α) - 1) * p.2 - 1','2 / ((width : α)) * p.2 - 1','C23','width not reduced by one')
M('geom-normpix-swap',F,'normalizePixel','(2 / ((height : α) - 1) * p.1 - 1, 2 / ((width : α) - 1) * p.2 - 1)','(2 / ((width : α) - 1) * p.1 - 1, 2 / ((height : α) - 1) * p.2 - 1)','C23','height and width swapped')
M('geom-unnorm',F,'unnormalizePixel','(p.1 + 1), 1','(p.1), 1','C23','offset lost on the way back')
M('geom-mesh',F,'meshgrid','(linspace 0 ((height : α) - 1) height i','(linspace 0 (height : α) height i','C23','meshgrid runs to height instead of height-1')
M('geom-mesh-swap',F,'meshgrid','(linspace (-1) 1 height i, linspace (-1) 1 width j)','(linspace (-1) 1 width j, linspace (-1) 1 height i)','C23','grid axes swapped')
M('geom-quat-sign',R,'rotOfQuat','txy - twz, txz + twy','txy + twz, txz + twy','C20','sign error in the rotation matrix')
M('geom-quat-conj',R,'rotOfQuat','  let twx := tx * q.w\n  let twy := ty * q.w\n  let twz := tz * q.w','  let twx := -(tx * q.w)\n  let twy := -(ty * q.w)\n  let twz := -(tz * q.w)','C20','conjugate quaternion: the inverse rotation')
M('geom-quat-nonorm',R,'quaternionToRotation','rotOfQuat (normalizeQuaternion eps q)','rotOfQuat q','C20','quaternion not normalised')
M('geom-hat-sign',R,'so3Hat','⟨⟨0, -w.z, w.y⟩, ⟨w.z, 0, -w.x⟩','⟨⟨0, w.z, w.y⟩, ⟨w.z, 0, -w.x⟩','C24','hat matrix not skew')
M('geom-hat-neg',R,'so3Hat','⟨⟨0, -w.z, w.y⟩, ⟨w.z, 0, -w.x⟩, ⟨-w.y, w.x, 0⟩⟩','⟨⟨0, w.z, -w.y⟩, ⟨-w.z, 0, w.x⟩, ⟨w.y, -w.x, 0⟩⟩','C24','hat matrix negated: rotation in the wrong sense',tightened=['so3_hat_cross'])
M('geom-so3-B',R,'so3Exp','    let B := (1 - cos θ) / θ ^ 2\n    (M3','    let B := (1 - cos θ) / θ\n    (M3','C24','B divided by theta instead of its square')
M('geom-so3-A',R,'so3Exp','let A := sin θ / θ','let A := cos θ / θ','C24','A uses cos')
M('geom-se3-V',R,'se3V','let C := (θ - sin θ) / θ ^ 3','let C := (θ - cos θ) / θ ^ 3','C24','C uses cos')
M('geom-se3-noV',R,'se3Exp','(se3V eps w).mulVec v','v','C24','translation not multiplied by V')
M('geom-se3-VB',R,'se3V','    (M3.one.add (W.smul B)).add ((W.mul W).smul C)','    (M3.one.add (W.smul C)).add ((W.mul W).smul B)','C24','B and C swapped in V')
X='Geom/AxisAngle.lean'
M('geom-aa-noflip',X,'twoTheta','if c < 0 then atan2 (-s) (-c) else atan2 s c','atan2 s c','C64','long way round for w < 0: angles up to 2 pi')
M('geom-aa-half',X,'twoTheta','2 * (if','(if','C64','half the angle')
M('geom-aa-swap',X,'twoTheta','else atan2 s c','else atan2 c s','C64','arguments of atan2 swapped')
M('geom-aa-k',X,'quaternionToAxisangle','twoTheta s q.w / s else 2','twoTheta s q.w else 2','C64','axis not normalised')
M('geom-aa-axis',X,'quaternionToAxisangle','⟨q.x * k, q.y * k, q.z * k⟩','⟨q.x * k, q.z * k, q.y * k⟩','C64','y and z swapped')
M('geom-pix-swap',X,'pixelOf','(l.getD 0 0 / guardZ (l.getD 2 0), l.getD 1 0','(l.getD 1 0 / guardZ (l.getD 2 0), l.getD 0 0','C18','u and v swapped')
M('geom-pix2cam-depth',X,'pixel2cam','(c.headD []).map (· * d)','(c.headD [])','C18','depth not applied')
M('geom-cam2pix-rank',X,'cam2pixel','else if dim ≠ 4 then .error .valueError\n  ','','','rank 3 accepted (then transform_pts_3d returns empty coordinates)')
