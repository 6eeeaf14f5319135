F='PC/Export.lean'
M('exp-upto-neg',F,'upTo','l.take (m + l.length).toNat','l.take m.natAbs','C75','negative limit taken as its absolute value')
M('exp-chosen-le',F,'chosen','if m < n then upTo','if m ≤ n then upTo','C75','permuted although the limit is not exceeded')
M('exp-chosen-flip',F,'chosen','if m < n then upTo (perm n) m else List.range n','if m < n then List.range n else upTo (perm n) m','C75','limit branches swapped')
M('exp-clamp-lo',F,'clamp','min (max x 0) hi','min x hi','C75','negative colours kept')
M('exp-clamp-hi',F,'clamp','min (max x 0) hi','max x 0','C75','colours above the range kept')
M('exp-unit-scale',F,'unitColors','then x / 255 else x','then x / 256 else x','C75','divided by 256')
M('exp-unit-flip',F,'unitColors','then x / 255 else x','then x else x / 255','C75','range guess inverted (open3d)')
M('exp-byte-flip',F,'byteColors','then x * 255 else x','then x else x * 255','C75','range guess inverted (plotly)')
M('exp-byte-all',F,'byteColors','if c.all fun r => r.all fun y => y < 11 / 10 then','if c.any fun r => r.any fun y => y < 11 / 10 then','C75','minimum instead of maximum')
M('exp-want',F,'exported','if h && want then','if h || want then','C75','attribute exported although not asked for')
M('exp-attr',F,'open3d','exported perm maxN b n .normals withNormals s','exported perm maxN b n .points withNormals s','C75','points exported as normals')
M('exp-attr2',F,'open3d','exported perm maxN b n .normals withNormals s','exported perm none b n .normals withNormals s','C75','normals of all points exported although points are limited')
M('exp-index',F,'open3d','let pts := pickRows (chosen perm maxN n) (P.getD b ⟨[], 0⟩)','let pts := pickRows (chosen perm maxN n) (P.getD 0 ⟨[], 0⟩)','C75','always the first cloud',count=1)
M('exp-num',F,'plotly','let n := s.num.getD b 0\n    match getList .points s with\n    | (none, s) => (.error .typeError, s)\n    | (some P, s) =>\n      let pts := pickRows (chosen perm maxN n) (P.getD b ⟨[], 0⟩)\n      match exported perm maxN b n .colors withColors s with\n      | (some [], s) => (.error .runtimeError, s)\n      | (c, s) => (.ok ⟨pts, c.map byteColors⟩, s)','let n := s.num.getD 0 0\n    match getList .points s with\n    | (none, s) => (.error .typeError, s)\n    | (some P, s) =>\n      let pts := pickRows (chosen perm maxN n) (P.getD b ⟨[], 0⟩)\n      match exported perm maxN b n .colors withColors s with\n      | (some [], s) => (.error .runtimeError, s)\n      | (c, s) => (.ok ⟨pts, c.map byteColors⟩, s)','C75','number of points of the first cloud')
F='Rgbd/Show.lean'
M('show-scale-ceil',F,'depthScale','⌊Real.logb 10 (255 / m)⌋','⌈Real.logb 10 (255 / m)⌉','C76','scale rounded up (overflow)')
M('show-scale-inv',F,'depthScale','(255 / m)','(m / 255)','C76','inverse scale')
M('show-scale-256',F,'depthScale','(255 / m)','(2550 / m)','C76','scale ten times too large')
M('show-bgr',F,'toBgr','p.at\' i j (2 - k)⟩','p.at\' i j k⟩','C76','channels not reversed')
M('show-bgr-chans',F,'toBgr','if p.chans = 3 ∨ p.chans = 4 then','if p.chans = 3 then','C76','four channels rejected')
M('show-color-th',F,'colorPic','< 11 / 10 then t.at\' b l i j k * 255 else t.at\' b l i j k','< 11 / 10 then t.at\' b l i j k else t.at\' b l i j k * 255','C76','range guess inverted')
M('show-color-th2',F,'colorPic','< 11 / 10 then','< 1 then','C76','a colour of exactly 1 makes the sequence look like bytes')
M('show-color-clamp',F,'colorPic','cast (min (max (','cast (min (min (','C76','clamp broken')
M('show-color-frame',F,'colorPics','toBgr (colorPic cast t b l)','toBgr (colorPic cast t b 0)','C76','always the first frame')
M('show-depth-frame',F,'depthPic','t.at\' b l i j 0 * depthScale','t.at\' b 0 i j 0 * depthScale','C76','depth of the first frame')
M('show-depth-scale',F,'depthPic','(maxOf (entries4 t b)), depthScale','(maxOf (entries4 t 0)), depthScale','C76','scale of the first sequence')
M('show-order',F,'colorPics','.ok (ps ++ [p])','.ok (p :: ps)','C76','frames reversed')
M('show-name',F,'showFrames','ps.zipIdx.map fun q => ⟨q.2, q.1, none⟩','ps.zipIdx.map fun q => ⟨q.2 + 1, q.1, none⟩','C76','names start at 1')
M('show-neg',F,'showFrames','else if maxOf (entries4 s.depth b) = 0 then .error .overflowError\n','','C76','no error for a zero depth image')
F='Slam/Model.lean'
M('slam-map-th2',F,'mapStep','pc fr d t inplace','pc fr t d inplace','C72','thresholds swapped')
M('slam-pf-deg2',F,'pointFusion','Real.cos (angleTh * Real.pi / 180)','Real.cos angleTh','C72','angle threshold in radians')
M('slam-pf-sin',F,'pointFusion','Real.cos (angleTh * Real.pi / 180)','Real.sin (angleTh * Real.pi / 180)','C72','sine instead of cosine')
M('slam-odom-default2',F,'odomOf','else .error .valueError','else .ok .gt','C48','unknown names fall back to gt')
M('slam-liveeye-static',F,'odometry','Geom.composeTransforms1 (T.getD b M4.one) (P.at\' b 0)','Geom.composeTransforms1 (P.at\' b 0) (P.at\' b 0)','C73','previous pose doubled')
M('slam-odo-batch',F,'odometry','(T.getD b M4.one) (P.at\' b 0)','(T.getD 0 M4.one) (P.at\' b 0)','C65','transform of the first sequence used for all')
M('slam-frameat-batch',F,'iter','x.poses ++ [fun b => T.at\' b 0]','x.poses ++ [fun _ => T.at\' 0 0]','C65','pose of the first sequence recorded for all')
