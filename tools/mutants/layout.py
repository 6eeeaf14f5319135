F='Fusion/Raw.lean'
M('ly-alpha',F,'fuseWithMapRaw','else if r.v.sh.d4 ≠ 3 then (.error valueError, pc)','else if r.v.sh.d2 = 0 then (.error valueError, pc)','C91','get_alpha does not check the dimension')
M('ly-nopick',F,'fuseWithMapRaw','match pickShape r with','match (Except.ok () : Except Err Unit) with','C91','new points picked per pixel whatever the shapes are')
M('ly-nosq',F,'pickShape','squeezeLast (dimList r.valid.sh)','dimList r.valid.sh','C91','mask not squeezed')
M('ly-entry',F,'pickShape','if e ≠ [3] then','if e ≠ [1] then','C91','constructor wants one column')
M('ly-fits',F,'Raw.fits','decide (r.gv.sh.d4 = 1) ||','decide (r.gv.sh.d4 = 0) ||','C91','(harmless for frames of width >= 2)')
M('ly-hw',F,'Raw.frame','r.gv.sh.d2, r.gv.sh.d3, row3 r.gv','r.gv.sh.d3, r.gv.sh.d2, row3 r.gv','C91','rows and columns swapped')
M('ly-cam',F,'Raw.camera','H := r.H, W := r.W','H := r.W, W := r.H','C91','height and width swapped')
M('ly-gn',F,'Raw.frame','row3 r.gn, row3 r.v','row3 r.n, row3 r.v','C91','camera-frame normals')
M('ly-read',F,'readRaw','s.H, s.W, gv, gn, v, n','s.H, s.W, v, gn, v, n','C91','camera-frame vertices')
M('ly-order',F,'updateMapFusionRaw','fuseWithMapRaw al pc r rows inplace','fuseWithMapRaw al pc r [] inplace','C91','correspondences dropped')
M('ly-L',F,'findSimilarRaw','if r.L ≠ 1 then','if r.L ≠ 2 then','C91','wants two frames')
F='Icp/Raw.lean'
M('ly-stride',F,'stride','(n + k - 1) / k','n / k','C91','floor instead of ceiling (channels-last shapes still match)')
M('ly-mask',F,'dsShape','strideLast2 (Fusion.squeezeLast (Fusion.dimList r.valid.sh)).tail k','(Fusion.squeezeLast (Fusion.dimList r.valid.sh)).tail','C91','mask not subsampled')
M('ly-noshape',F,'downsampleRaw','match dsShape r ds.toNat with','match (Except.ok () : Except Err Unit) with','C91','channels-first frames are misread')
M('ly-neg',F,'downsampleRaw','if ds ≤ 0 then','if ds < 0 then','C91','ratio zero accepted')
F='Slam/Model.lean'
M('ly-agg',F,'readAggregate','if live.cf then match','if false then match','C91 C47','map of channels-first frames not converted')
M('ly-aggpc',F,'readAggregate','((Fusion.readFrame S.nrm S.eps o).1, live)','((Fusion.readFrame S.nrm S.eps live).1, live)','C91 C47','the unconverted frame is read')
M('ly-prev',F,'iter','if S.odom.isGt then none else some live','if S.odom.isGt then some live else none','C91','previous frame dropped when tracking')
M('ly-loc',F,'localize','| .prov provide, some prev => match prev.poses with','| .prov provide, some prev => match live.poses with','C91 C48','poses of the live frame')
M('ly-first',F,'liveFrame','s = 0 ∧ live.poses = none','live.poses = none','C91 C47','identity for every frame without pose')
