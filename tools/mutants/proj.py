F='Flt/ProjModel.lean'
M('pj-eps',F,'inverseIntrinsicsF','F.rnd (F.rnd (-1 * K.r0.z) / F.rnd (K.r0.x + eps))','F.rnd (F.rnd (-1 * K.r0.z) / F.rnd (K.r0.x))','C93','eps missing from one entry')
M('pj-sign',F,'inverseIntrinsicsF','F.rnd (F.rnd (-1 * K.r0.z)','F.rnd (F.rnd (K.r0.z)','C93','sign of the principal point')
M('pj-fxfy',F,'inverseIntrinsicsF','F.rnd (1 / F.rnd (K.r1.y + eps))','F.rnd (1 / F.rnd (K.r0.x + eps))','C93','fx used for fy')
M('pj-nodepth',F,'VertexF','F.rnd (r.y * d)','F.rnd r.y','C93','y not scaled by the depth')
M('pj-not',F,'WorldF','F.rnd (r.x + T.t.x)','F.rnd (r.x - T.t.x)','C93','translation subtracted')
M('pj-rt',F,'WorldF','MulVecF F T.R v r','MulVecF F T.R.transpose v r','C93','rotated the other way')
M('pj-cam',F,'CameraF','MulVecF F T.R.transpose p r','MulVecF F T.R p r','C93','inverse rotation missing')
M('pj-camt',F,'CameraF','MulVecF F T.R.transpose.neg T.t m','MulVecF F T.R.neg T.t m','C93','inverse translation with R instead of the transpose')
M('pj-swap',F,'ProjectF','q = (F.rnd (a / Geom.guardZ z), F.rnd (b / Geom.guardZ z))','q = (F.rnd (b / Geom.guardZ z), F.rnd (a / Geom.guardZ z))','C93','u and v swapped')
M('pj-z',F,'ProjectF','F.rnd (b / Geom.guardZ z)','F.rnd (b / Geom.guardZ c.z)','C93','divides by the camera depth (no rounding of the last row)')
M('pj-tol',F,'inFrameF','decide (q.1 > F.rnd (-1 / 1000))','decide (q.1 > 0)','C93','no tolerance at the left edge')
M('pj-tol2',F,'inFrameF','q.1 < F.rnd ((W : ℝ) - 999 / 1000)','q.1 < F.rnd ((W : ℝ) - 1)','C93','no tolerance at the right edge')
M('pj-hw',F,'inFrameF','q.2 < F.rnd ((H : ℝ) - 999 / 1000)','q.2 < F.rnd ((W : ℝ) - 999 / 1000)','C93','height and width confused')
M('pj-wide',F,'inFrameF','decide (q.1 > F.rnd (-1 / 1000))','decide (q.1 > F.rnd (-1 / 100))','C93','tolerance of a hundredth (nothing is lost at the left edge)')
M('pj-behind',F,'inFrameF','decide (c.z > 0)','decide (c.z < 0)','C93','only points behind the camera')
M('pj-trunc',F,'pixelF','Fusion.roundEven q.1','⌊q.1⌋','C93','truncated instead of rounded')
M('pj-hw2',F,'pixelF','(Fusion.clampIdx H (Fusion.roundEven q.2), Fusion.clampIdx W (Fusion.roundEven q.1))','(Fusion.clampIdx H (Fusion.roundEven q.1), Fusion.clampIdx W (Fusion.roundEven q.2))','C93','row and column swapped')
M('pj-clamp',F,'pixelF','Fusion.clampIdx W (','Fusion.clampIdx (W - 1) (','C93','clamped to one column less')
M('pj-addfree',F,'Dots','| one (a b : ℝ) : Dots F [(a, b)] (F.rnd (a * b))','| one (a b : ℝ) : Dots F [(a, b)] (F.rnd (F.rnd (a * b) + 1))','C93','an offset enters every sum')
