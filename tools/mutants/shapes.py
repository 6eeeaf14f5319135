F='Rgbd/Shapes.lean'
M('sh-rank',F,'checkRanks','if depth.length ≠ 5 then .error .valueError\n  else ','','C104','rank of the depth image not checked (the shape comparison still catches it: equivalent)')
M('sh-krank',F,'checkRanks','else if K.length ≠ 4 then .error .valueError\n','','C104','rank of the intrinsics not checked (equivalent)')
M('sh-rgbrank',F,'checkRanks','if rgb.length ≠ 5 then','if rgb.length < 5 then','C104','rank-6 images accepted')
M('sh-cdim',F,'cdim','if cf then 2 else 4','if cf then 2 else 3','C104','channel dimension off by one')
M('sh-chan',F,'checkShapes','if rgb.getD (cdim cf) 0 ≠ 3 then','if rgb.getD (cdim cf) 0 < 3 then','C104','RGBA accepted')
M('sh-depth',F,'checkShapes','if i ≠ cdim cf then v else 1','v','C104','depth needs three channels')
M('sh-K',F,'checkShapes','[rgb.getD 0 0, 1, 4, 4]','[rgb.getD 0 0, rgb.getD 1 0, 4, 4]','C104','intrinsics per frame')
M('sh-poses',F,'checkShapes','rgb.take 2 ++ [4, 4]','rgb.take 1 ++ [1, 4, 4]','C104','one pose per sequence')
M('sh-pix',F,'checkShapes','rgb.drop (cdim cf + 1)','rgb.drop (cdim cf)','C104','positions with the channel dimension kept')
M('sh-pixopt',F,'checkShapes','if pix ≠ none ∧ pix ≠ some pixShape then','if pix ≠ some pixShape then','C104','positions required')
F='Rgbd/Model.lean'
M('sh-setrgb',F,'setRgb','if v.sh ≠ s.rgbShape then (.error .valueError, s) else','','C104','rgb setter without a check')
M('sh-setrgb2',F,'setRgb','(.error .valueError, s) else','(.error .valueError, { s with rgb := v }) else','C104','rgb setter assigns before checking')
M('sh-setdepth',F,'setDepth','if v.sh ≠ sh then (.error .valueError, s)\n    else ','','C104','depth setter without a check')
M('sh-setdepth2',F,'setDepth','| none => (.error .attributeError, s)','| none => (.ok (), { s with depth := v })','C104','depth setter without a check before the first layout change')
M('sh-setK',F,'setK','(v.d0, v.d1) ≠ (s.B, 1)','v.d0 ≠ s.B','C104','time dimension of assigned intrinsics not checked')
M('sh-setposes',F,'setPoses','(p.d0, p.d1) = (s.B, s.L)','p.d1 = s.L','C104','batch size of assigned poses not checked')
M('sh-first',F,'toFirst_','rgbShape := (perm01423 s.rgb).sh','rgbShape := s.rgb.sh','C104','remembered shape not updated by the layout change: an image in the old layout is accepted')
M('sh-last',F,'toLast_','depthImageShape := some (perm01342 s.depth).sh','depthImageShape := some s.depth.sh','C104','remembered depth shape not updated')
M('sh-flag',F,'toLast_','cf := false\n','cf := true\n','C104','flag not updated')
M('sh-perm',F,'toFirst_','depth := perm01423 s.depth','depth := s.depth','C104','depth image not permuted')
M('sh-clone',F,'clone','new s.rgb s.depth s.K none s.cf none','new s.rgb s.depth s.K none false none','C104','clone always channels last: channels-first objects cannot be cloned')
M('sh-selK',F,'selected','poses := s.poses.map (TM.sel is js)','poses := s.poses','C104','poses not selected')
M('sh-selpix',F,'selected','pix := s.pix.map (T5.sel is js)','pix := s.pix','C104','pixel positions not selected')
M('sh-empty',F,'selected','else if js.length = 0 then .error .indexError\n  ','','C104','empty selections of frames are returned')
M('sh-mesh',F,'meshPix','⟨⟨B, L, H','⟨⟨1, L, H','C104','mesh made for one batch element')
