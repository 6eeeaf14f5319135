F='RMem/Slam.lean'
M('sm-share',F,'odometry','''              let p := m.fresh (m.dev P) (.ofMat ⟨T.length, 1, fun b _ => Geom.composeTransforms1 (T.getD b M4.one) ((m.read P).mat.at' b 0)⟩)
              (.ok p.2, pc, p.1, live)''','''              (.ok P, pc, m.poke P.ref (.ofMat ⟨T.length, 1, fun b _ => Geom.composeTransforms1 (T.getD b M4.one) ((m.read P).mat.at' b 0)⟩), live)''','C99','pose composed in place into the previous poses')
M('sm-alias',F,'odometry','(.ok p.2, pc, p.1, live)','(.ok P, pc, p.1, live)','C99','the poses of the previous frame are returned')
M('sm-dev',F,'odometry','m.fresh (m.dev P)','m.fresh .cpu','C99','composed poses on the CPU')
M('sm-comp',F,'odometry',"Geom.composeTransforms1 (T.getD b M4.one) ((m.read P).mat.at' b 0)","Geom.composeTransforms1 ((m.read P).mat.at' b 0) (T.getD b M4.one)",'C99','composition on the wrong side')
M('sm-cam',F,'odometry','Slam.camera (val m prev)','Slam.camera (val m live)','C99','active map points seen from the live frame')
M('sm-noset',F,'odometry','match setPoses (some P) m live with','match setPoses (live.opt .poses) m live with','C99','the live frame keeps its own pose during registration')
M('sm-clone',F,'localize','''    | none => (.error .valueError, pc, m, live)
    | some P => (.ok P, pc, m, live)''','''    | none => (.error .valueError, pc, m, live)
    | some P => (.ok (m.fresh (m.dev P) (m.read P)).2, pc, (m.fresh (m.dev P) (m.read P)).1, live)''','C99','ground truth poses are copied')
M('sm-gt',F,'localize','match S.odom, prev with\n  | .prov provide, some prev => match prev.opt','match S.odom, prev with\n  | .prov provide, some prev => match live.opt','C99','the live poses initialise the odometry')
M('sm-agg',F,'readAggregate','''    | (.ok x, m, c) => (.ok (frameOf m c x), m, live)''','''    | (.ok x, m, c) => (.ok (frameOf m c x), m, c)''','C99','the channels-last copy replaces the live frame')
M('sm-nopose',F,'slamStep','| (.ok (), live) => match mapStep S ctg pc m live inplace with','| (.ok (), _) => match mapStep S ctg pc m live inplace with','C99','the located pose is not stored in the live frame')
M('sm-inpl',F,'slamStep','match mapStep S ctg pc m live inplace with','match mapStep S ctg pc m live true with','C99','inplace flag ignored')
M('sm-idx',F,'frameAt','.slice none none none, .int s]','.slice none none none, .int (s + 1)]','C99','next frame')
M('sm-moved',F,'frameAt','| (.ok (.new c), m) => (.ok c, m)','| (.ok (.new _), m) => (.ok o, m)','C99','the frame is not moved to the device')
M('sm-eye',F,'liveFrame','if s = 0 ∧ live.opt .poses = none then','if live.opt .poses = none then','C99','identity poses for every frame without poses')
M('sm-eyedev',F,'liveFrame','match m.fresh d (.ofMat','match m.fresh .cpu (.ofMat','C99','identity poses on the CPU')
M('sm-last',F,'iter','match setPoses (some T) m live with','match setPoses (some ⟨T.ref, []⟩) m live with','C99','view of T dropped')
M('sm-out',F,'forward','let p := x.mem.fresh d (.ofMat','let p := x.mem.fresh .cpu (.ofMat','C99','recovered poses on the CPU')
M('sm-outshare',F,'forward','.ok (x.pc, p.2, p.1)','.ok (x.pc, ((frames.opt .poses).getD p.2), p.1)','C99','the given poses returned')
M('sm-read',F,'readMaps','| (.ok gv, m, o) => match getGNormal nrm eps m o with','| (.ok gv, m, o) => match getNormal nrm eps m o with','C99','local instead of global normals')
M('sm-mask',F,'rawOf',"(m.read x.2.2.2.2).bit","(m.read x.2.2.2.1).bit",'C99','mask read from another tensor')
F='RMem/Model.lean'
M('sm-setclone',F,'setPoses','else (.ok (), ({ o with opt := Function.update o.opt .poses v } : Obj).dropGlobal)','else (.ok (), ({ o with opt := Function.update o.opt .poses v } : Obj))','C99 C83','cached global maps kept when poses are set')
