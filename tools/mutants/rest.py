F='PC/Model.lean'
M('rest-newempty',F,'newEmpty','fun _ => none, [0], none, 0, 0⟩','fun _ => none, [], none, 0, 0⟩','C26','empty object with an empty list of numbers')
M('rest-newempty2',F,'newEmpty','none, 0, 0⟩','none, 1, 0⟩','C26','empty object of batch size one')
M('rest-getpad',F,'getPad','(.ok (s.pad X), s)','(.ok (s.pad .points), s)','C26','always the points')
M('rest-copyattr',F,'copyAttr','lst := Function.update s.lst X l','lst := Function.update s.lst .points l','C28','attribute copied into points')
M('rest-copyattr2',F,'copyAttr','if h then\n    let (l, o) := getList X o','if h then\n    let (l, o) := getList .points o','C28','points copied into every attribute')
M('rest-add',F,'add','outOfPlace (offset_ f)','outOfPlace (scale_ f)','C30','add scales')
M('rest-mul',F,'mul','outOfPlace (scale_ f)','outOfPlace (scale_ fun b n c => f b n c * f b n c)','C30','scaled twice')
F='Cfg/Load.lean'
M('rest-rfind',F,'rfind','some i => s.length - 1 - i','some i => s.length - i','C71','off by one position of the last dot')
M('rest-rfind-first',F,'rfind','match s.reverse.findIdx? (· = c) with\n  | none => -1\n  | some i => s.length - 1 - i','match s.findIdx? (· = c) with\n  | none => -1\n  | some i => i','C71','first instead of last position')
F='Cfg/Model.lean'
M('rest-fresh',F,'Flags.fresh','⟨false, false, [], []⟩','⟨true, false, [], []⟩','C02','new nodes start frozen')
M('rest-fresh2',F,'Flags.fresh','⟨false, false, [], []⟩','⟨false, true, [], []⟩','C03','new nodes allow new keys')
M('rest-get',F,'Tree.get','if k\' = k then some (.leaf l) else rest.get k','if k\' = k then none else rest.get k','C05','leaf values not found')
M('rest-internal',F,'internalNames','["__immutable__", "__deprecated_keys__"','["__deprecated_keys__"','C02','the frozen flag can be assigned')
M('rest-setattrat',F,'setattrAt','.ok (.sub (some f) (es.set k c\'))','.ok (.sub (some f) es)','C02','nested update dropped')
F='Cfg/Print.lean'
M('rest-split',F,'splitNl',"if c = '\\n' then [] :: splitNl s else","if c = '\\n' then splitNl s else",'C70','line breaks dropped')
M('rest-join',F,'joinNl',"l ++ '\\n' :: joinNl ls","l ++ joinNl ls",'C70','lines joined without break')
M('rest-sort',F,'sortItems','l.insertionSort fun a b => a.1 ≤ b.1','l','C70','not sorted')
M('rest-sort2',F,'sortItems','a.1 ≤ b.1','b.1 ≤ a.1','C70','sorted in reverse')
M('rest-str',F,'str','joinItems (items sh shDict t)','indent 2 (joinItems (items sh shDict t))','C70','everything indented')
F='Fusion/Alpha.lean'
M('rest-alpha',F,'getAlpha','(2 * sigma ^ 2)','sigma ^ 2','C40','factor 2 missing')
M('rest-alpha2',F,'getAlpha','(exp (-(p.x','(exp ((p.x','C40','sign dropped')
M('rest-alpha3',F,'getAlpha','p.x ^ 2 + p.y ^ 2 + p.z ^ 2','p.x ^ 2 + p.y ^ 2','C40','depth ignored')
M('rest-alpha4',F,'getAlpha','max (exp','min (exp','C40','clamp broken')
F='Fusion/Model.lean'
M('rest-findbest-batch',F,'findBest','else if fr.B ≠ pc.B then (.error valueError, pc)','else if fr.B = pc.B then (.error valueError, pc)','C36','batch check inverted')
M('rest-findbest-feat',F,'findBest','if !hf then (.error valueError, pc)','if hf then (.error valueError, pc)','C36','features check inverted')
M('rest-require',F,'requireAll','if h then requireAll rest pc else (false, pc)','if h then (true, pc) else (false, pc)','C37','only the first attribute required')
F='Fusion/ReadFrame.lean'
M('rest-readframe',F,'readFrame','Rgbd.px3 false gv, Rgbd.px3 false gn, Rgbd.px3 false v','Rgbd.px3 false v, Rgbd.px3 false gn, Rgbd.px3 false v','C37','camera points used as world points')
M('rest-readframe2',F,'readFrame','Rgbd.px3 false gn, Rgbd.px3 false v, Rgbd.px3 false n','Rgbd.px3 false n, Rgbd.px3 false v, Rgbd.px3 false n','C35','camera normals used as world normals')
M('rest-readframe3',F,'readFrame','fun b => s.K.at\' b 0⟩','fun _ => s.K.at\' 0 0⟩','C34','intrinsics of the first sequence')
F='Geom/AxisAngle.lean'
M('rest-c2pkf',F,'cam2pixelKF','.map pixelOf','.map fun p => (pixelOf p).swap','C18','pixel coordinates swapped')
F='Geom/Model.lean'
M('rest-unhom',F,'unhomogenizePoints','if dim < 2 then','if dim < 3 then','C17','two-dimensional input rejected')
M('rest-bmv',F,'batchedMatVec','matmulShape n 3 3 n 3','matmulShape n 3 3 3 n','C21','batched translation shape',)
M('rest-inv3d',F,'inverseTransform3d','.ok (.batch (Ts.map inverseTransform1))','.ok (.batch Ts)','C21','batch not inverted')
M('rest-inv3d1',F,'inverseTransform3d','.ok (.single (inverseTransform1 T))','.ok (.single T)','C21','not inverted')
M('rest-comp3d',F,'composeTransforms3d','.ok (.single (composeTransforms1 A B))','.ok (.single (composeTransforms1 B A))','C21','order swapped')
M('rest-comp3db',F,'composeTransforms3d','List.zipWith composeTransforms1 As Bs','List.zipWith composeTransforms1 Bs As','C21','order swapped in batches')
F='Geom/ModelReal.lean'
M('rest-normq',F,'normalizeQuaternion','max q.norm eps','min q.norm eps','C20','clamp from above')
M('rest-normq2',F,'normalizeQuaternion','q.w / d⟩','q.w⟩','C20','scalar part not normalised')
M('rest-se3hat',F,'se3Hat','⟨so3Hat w, v, V3.zero, 0⟩','⟨so3Hat w, v, V3.zero, 1⟩','C24','bottom right entry 1')
F='Icp/Model.lean'
M('rest-p2pgrad',F,'pointToPlaneGradICP','numiters.toNat','(numiters - 1).toNat','C55','one iteration fewer')
M('rest-p2pgrad0',F,'pointToPlaneGradICP','| none => .error .attributeError\n','| none => finish (loop (gradStep eps lmax B B2 nu nn th tgt nrm) numiters.toNat (start src damp M4.one))\n','C55','missing initial transform accepted')
M('rest-p2pgrad-init',F,'pointToPlaneGradICP','(start src damp T0))','(start src damp M4.one))','C55','initial transform ignored')
F='Slam/Model.lean'
M('rest-icpslam',F,'icpSlam','.ok ⟨o, p.ds, .aggregate','.ok ⟨o, 1, .aggregate','C63','downsampling ratio ignored')
M('rest-icpslam2',F,'icpSlam','.aggregate, nrm','.fusion 0 0, nrm','C41','ICP-SLAM fuses')
F='Data/Files.lean'
M('rest-isnan',F,'Entry.isNaN','| .num none => true','| .num none => false','C62','nan lines kept')
M('rest-iclitems',F,'iclItems','iclPoseLines posesLen 0 (','iclPoseLines posesLen 1 (','C11','pose lines start at 1')
M('rest-loadposes',F,'loadPoses','loadPosesLoop bottom starts 0 [] false file','loadPosesLoop bottom starts 1 [] false file','C11','line numbers start at 1')
F='Data/Images.lean'
M('rest-remap',F,'remapPass','if l = p.1 then p.2 else l','if l = p.2 then p.1 else l','C13','inverse map')
M('rest-remap20',F,'nyu40ToScannet20','remapping.foldl','remapping.tail.foldl','C13','first pass skipped')
M('rest-nyu',F,'nyu40','("wall", (174, 199, 232))','("wall", (174, 199, 231))','C60','one colour differs between the label sets')
M('rest-nyu2',F,'nyu40','("unlabeled", (0, 0, 0)), ("wall"','("wall"','C60','unlabeled missing')
M('rest-paint',F,'paintPass','if l = p.1 then p.2 else c','if l = p.1 then c else p.2','C60','inverse mask')
M('rest-scale4',F,'scaleIntrinsics4','scaleIntrinsics3 K.R h w','scaleIntrinsics3 K.R w h','C15','ratios swapped')
F='Data/Item.lean'
M('rest-iclk',F,'iclK','-480, 479 / 2','480, 479 / 2','C67','sign of fy')
M('rest-iclk2',F,'iclK','(o.height / 480) (o.width / ','(o.width / 480) (o.height / ','C67','ratios swapped')
M('rest-stamp',F,'stampText','t.2.2.getD','(some t.2.1).getD','C67','depth stamp shown as pose stamp')
F='Data/ItemSets.lean'
M('rest-tumitems',F,'tumItems','.ok (ws.map tumItemOf)','.ok (ws.tail.map tumItemOf)','C67','first window dropped')
F='Data/Window.lean'
M('rest-windows',F,'windows','pyRange frames.length w.stride','pyRange (frames.length - 1) w.stride','C08','last start skipped')
M('rest-windows2',F,'windows','(offsets w.seqlen w.dilation)','(offsets w.seqlen (w.dilation + 1))','C07','dilation off by one')
F='Rgbd/Model.lean'
M('rest-setc',F,'Shape5.setC','{ s with d2 := c } else { s with d4 := c }','{ s with d4 := c } else { s with d2 := c }','C45','channel dimension confused')
M('rest-pixshape',F,'Shape5.pixShape','if cf then ⟨s.d0, s.d1, s.d3, s.d4, 3⟩','if cf then ⟨s.d0, s.d1, s.d2, s.d3, 3⟩','C46','pixel positions of channels-first objects checked against the wrong shape')
M('rest-getvertex',F,'getVertex','(.ok (s.vertex.getD s.rgb), s)','(.ok s.rgb, s)','C43','colours returned')
M('rest-getnormal',F,'getNormal','(.ok (s.normal.getD s.rgb), s)','(.ok s.rgb, s)','C43','colours returned as normals')
M('rest-getgnormal',F,'getGNormal','| none => match computeGNormal nrm eps s with','| none => match computeNormal nrm eps s with','C43','camera normals returned')
