F='Icp/Model.lean'
M('cv-compose',F,'icpStep','(Geom.se3Exp eps (xiV xi) (xiW xi)).mul s.T, some idx','s.T.mul (Geom.se3Exp eps (xiV xi) (xiW xi)), some idx','C95 C96','increment multiplied on the wrong side')
M('cv-accept',F,'icpStep','if newErr < err then','if err < newErr then','C95 C96','a step is accepted if the error grows')
M('cv-src',F,'icpStep','.ok ⟨one, s.damp / 2,','.ok ⟨s.src, s.damp / 2,','C95 C96','the source cloud is not moved')
M('cv-damp',F,'icpStep','else .ok ⟨s.src, s.damp * 2, s.T, some idx⟩','else .ok ⟨s.src, s.damp * 2, M4.one, some idx⟩','C95 C96','a rejected step resets the transform')
M('cv-row',F,'rowA','n.z * s.y - n.y * s.z, n.x * s.z - n.z * s.x, n.y * s.x - n.x * s.y','n.y * s.z - n.z * s.y, n.z * s.x - n.x * s.z, n.x * s.y - n.y * s.x','C95 C96','cross product with the opposite sign')
M('cv-b',F,'entryB','n.x * (d.x - s.x) + n.y * (d.y - s.y) + n.z * (d.z - s.z)','n.x * (s.x - d.x) + n.y * (s.y - d.y) + n.z * (s.z - d.z)','C95 C96','residual with the opposite sign')
M('cv-normal',F,'gaussNewton','rowA s (nrm.getD (nn tgt s) V3.zero), 6','rowA s (nrm.getD 0 V3.zero), 6','C95 C96','always the first normal')
M('cv-grad',F,'gradStep','R.mul s.T, some idx','s.T.mul R, some idx','C95 C96','gradICP: increment multiplied on the wrong side')
M('cv-weight',F,'gradStep','let w := stepWeight B2 nu e','let w := 2 * stepWeight B2 nu e','C95 C96','gradICP: steps twice as long')
M('cv-start',F,'start','⟨Geom.transformPointcloud T0 src, damp, T0, none⟩','⟨src, damp, T0, none⟩','C95','initial transform not applied to the source')
M('cv-thr',F,'keeps','decide (nnDist nn tgt s < t)','decide (nnDist nn tgt s < t / 16)','C95 C96','correspondences rejected too early')
F='Geom/ModelReal.lean'
M('cv-so3',F,'so3Exp','let A := sin θ / θ','let A := sin θ','C95 C96','so3_exp: sine not divided by the angle')
M('cv-se3',F,'se3V','(M3.one.add (W.smul B)).add ((W.mul W).smul C)','(M3.one.add (W.smul B))','C95 C96','V matrix truncated (only second order is lost)')
M('cv-se3v',F,'se3Exp','(se3V eps w).mulVec v','(se3V eps w).transpose.mulVec v','','V transposed (first-order change in w v: the bound still holds?)')
F='Slam/Model.lean'
M('cv-comp',F,'odometry',"Geom.composeTransforms1 (T.getD b M4.one) (P.at' b 0)","Geom.composeTransforms1 (P.at' b 0) (T.getD b M4.one)",'C96','recovered motion composed on the wrong side')
M('cv-swap',F,'odometry','match provide mapsPc framesPc with','match provide framesPc mapsPc with','C96','map and frame swapped in the provider call')
M('cv-setposes',F,'odometry','match Rgbd.setPoses (some P) live with','match Rgbd.setPoses live.poses live with','C96','the live frame keeps its own pose during registration')
M('cv-ds',F,'odometry','match Icp.downsamplePointclouds pc rows S.ds with','match Icp.downsamplePointclouds pc (rows.drop 1) S.ds with','C96','the first active map point is skipped')
M('cv-one',F,'odometry',"Geom.composeTransforms1 (T.getD b M4.one) (P.at' b 0)","Geom.composeTransforms1 (T.getD 0 M4.one) (P.at' b 0)",'C96','every batch element gets the motion of the first')
