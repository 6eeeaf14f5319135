F='Data/Select.lean'
M('late-resolve-empty',F,'Names.resolve','if l = [] then .error .valueError else .ok (some l)','.ok (some l)','C87','empty tuple reaches the scan (same outcome: nothing selected)')
M('late-resolve-sep',F,'Names.resolve','.ok (some (splitC \'\\n\' c))','.ok (some (splitC \',\' c))','C87','names file split at commas')
M('late-resolve-file',F,'Names.resolve','| .file none => .error .valueError','| .file none => .ok none','C87','missing names file means everything')
M('late-wanted',F,'wanted','| some s => s.contains n','| some s => !s.contains n','C87','serves the others')
M('late-miscount',F,'miscount','| some s => l.length != s.length','| some s => decide (s.length < l.length)','C87','missing sequences not reported')
M('late-tumname1',F,'tumName','if a ≠ "rgbd".toList then','if a = "rgbd".toList then','C87','name test inverted')
M('late-tumname2',F,'tumName','if c.dropLast ≠ "freiburg".toList ∨ r = []','if c.dropLast ≠ "freiburg".toList','C87','name without NAME part accepted')
M('late-tumname3',F,'tumName','if c.dropLast ≠','if c ≠','C87','freiburg without number')
M('late-tumscan-order',F,'tumScan','n :: l else l)','l ++ [n] else l)','C87','reversed order')
M('late-tumscan-file',F,'tumScan','else tumScan req rest','else .error .valueError','C87','plain files in basedir rejected')
M('late-tumscan-stray',F,'tumScan','| .error e => .error e\n      | .ok _ =>\n','| .error _ => tumScan req rest\n      | .ok _ =>\n','C87','stray folders skipped')
M('late-tumfiles',F,'tumFiles','["rgb.txt".toList, "depth.txt".toList]','["rgb.txt".toList]','C87','depth.txt not required')
M('late-tumfiles2',F,'tumFiles','(if loadPoses then','(if !loadPoses then','C87','groundtruth.txt required without poses')
M('late-tumselect-all',F,'tumSelect','if l.all (fun n','if l.any (fun n','C87','one complete folder suffices')
M('late-tumselect-empty',F,'tumSelect','      if l = [] then .error .valueError\n      else if miscount','      if miscount','C87','empty dataset accepted')
M('late-iclname',F,'iclName','n.take 16 == "living_room_traj".toList && ','','C87','prefix not checked')
M('late-iclname2',F,'iclName','n.drop (n.length - 9) ==','n.drop (n.length - 8) ==','C87','wrong suffix length')
M('late-folders',F,'folders','(listing.filter (·.2))','(listing.filter (!·.2))','C87','files instead of folders')
M('late-indexof',F,'indexOf','(indexOf pat s).map (· + 1)','indexOf pat s','C87','index of a substring off')
M('late-iclnumber',F,'iclNumber','path.drop (i + 16)','path.drop (i + 17)','C87','first digit dropped')
M('late-iclnumber2',F,'iclNumber','splitC \'_\'','splitC \'f\'','C87','number includes the underscore')
M('late-iclfiles',F,'iclFiles','if has n "associations.txt".toList then','if true then','C87','associations not required')
M('late-iclfiles2',F,'iclFiles','iclNumber (base ++ n)','iclNumber n','C87','number from the folder name (would repair the trap)')
M('late-iclwanted',F,'iclWanted','| none => ((folders listing).filter iclName).contains n','| none => true','C87','stray folders served')
M('late-iclselect',F,'iclSelect','if (req.getD []).all iclName then','if (req.getD []).any iclName then','C87','names not all checked')
M('late-iclframe',F,'iclFrame','⟨resolve c, resolve d,','⟨resolve d, resolve c,','C87','colour and depth swapped')
M('late-iclframe2',F,'iclFrame','cols[3]?, cols[1]?','cols[1]?, cols[3]?','C87','columns swapped')
M('late-iclframe3',F,'iclFrame','d.drop 6','d.drop 5','C87','name keeps the slash')
M('late-iclframe4',F,'iclFrame','d.drop 6','c.drop 4','C87','named after the colour file')
M('late-scannames',F,'scanNames','| .tuple l => .ok (some l)','| .tuple l => if l = [] then .ok none else .ok (some l)','C87','empty tuple means everything')
M('late-scanselect',F,'scanSelect','splitC \'-\' f','splitC \'_\' f','C87','scene name cut at underscore')
M('late-scankeys',F,'scanKeys','(14, "intrinsic_depth".toList)','(12, "intrinsic_depth".toList)','C87','wrong intrinsics column')
M('late-scankeys2',F,'scanKeys','(2, "depth".toList), (4, "pose".toList)','(4, "pose".toList), (2, "depth".toList)','C87','depth and pose swapped')
M('late-scancol',F,'scanCol','match cols[i + 1]?','match cols[i + 2]?','C87','next column')
M('late-scancol2',F,'scanCol','if k ≠ key then .error .valueError\n    else match','match','C87','keyword not checked')
F='Fusion/Model.lean'
M('late-merge-w',F,'mergeRow','* (1 / guard0 (coef c k + a))','* (1 / guard0 (coef c k))','C85','normalised by the old confidence')
M('late-merge-a',F,'mergeRow','a * comp q k','comp q k','C85','new measurement has weight one')
M('late-merge-conf',F,'mergeStep','r.map fun c => c + a b n','r.map fun c => c + 1','C85','confidence counts observations')
M('late-merge-drop',F,'mergeStep','(.normals, mapRows (fun b n r => mergeRow (cell f b n) (a b n) (scatter rows fr.gn b n) r) (nn.getD [])),','(.normals, nn.getD []),','C85','normals not merged')
M('late-newmask',F,'newMask','!(l == 0 && rows.any fun r => r.b = b ∧ r.h = h ∧ r.w = w) && fr.valid b l h w','fr.valid b l h w','C85','matched pixels added again')
M('late-newmask2',F,'newMask','r.b = b ∧ r.h = h ∧ r.w = w','r.h = h ∧ r.w = w','C85','pixels matched in another sequence dropped')
M('late-keepfirst',F,'keepFirst','then keepFirst (some k) ks else','then k :: keepFirst (some k) ks else','C85','a pixel merged into several points')
M('late-newarg',F,'pickedAl','[al (fr.v b x.1 x.2.1 x.2.2)]','[1]','C85','new points start with confidence 1')
M('late-newarg2',F,'pickedAl','al (fr.v b x.1 x.2.1 x.2.2)','al (fr.gv b x.1 x.2.1 x.2.2)','C85','weight from world coordinates')
M('late-picked',F,'newArg','| .colors => some (picked fr m fr.rgb)','| .colors => some (picked fr m fr.gn)','C85','colours of new points are normals')
F='Slam/Model.lean'
M('late-rot-compose',F,'odometry','Geom.composeTransforms1 (T.getD b M4.one) (P.at\' b 0)','Geom.composeTransforms1 (P.at\' b 0) (T.getD b M4.one)','C80','correction multiplied on the right')
M('late-rot-compose1',F,'odometry','Geom.composeTransforms1 (T.getD b M4.one) (P.at\' b 0)','T.getD b M4.one','C80 C79','estimate not composed with the previous pose')
M('late-first',F,'liveFrame','if s = 0 ∧ live.poses = none','if s = 0','C69 C80','the first pose is always the identity')
M('late-prev',F,'iter','if S.odom.isGt then none else some live','if S.odom.isGt then none else (x.prev <|> some live)','C79 C80','always localised against the first frame')
F='Icp/Model.lean'
M('late-clamp',F,'clamp70','min (max x (-70)) 70','max x 0','C77','kink at zero')
M('late-step-abs',F,'stepWeight','1 / (1 + Real.exp (-B2 * e)) ^ (1 / nu)','1 / (1 + Real.exp (-B2 * |e|)) ^ (1 / nu)','C77','absolute value in the weight')
M('late-damp-abs',F,'dampFactor','1 + Real.exp (-B * e)','1 + Real.exp (-B * |e|)','C77','absolute value in the damping')
M('late-damp-if',F,'gradStep','s.damp * dampFactor lmax B e','(if newErr < err then s.damp / 2 else s.damp * 2)','C77','damping by cases')
M('late-step-if',F,'gradStep','let w := stepWeight B2 nu e','let w : ℝ := if newErr < err then 1 else 0','C77','all-or-nothing step')
M('late-rowa-axis',F,'entryB','n.x * (d.x - s.x) + n.y * (d.y - s.y) + n.z * (d.z - s.z)','n.x * (d.x - s.x) + n.y * (d.y - s.y)','C80','z component of the residual dropped')
M('late-rowa-sign',F,'rowA','n.z * s.y - n.y * s.z','n.z * s.y + n.y * s.z','C80','sign in the cross product')
M('late-xiw',F,'xiW','⟨(x.rows.getD 3 []).getD 0 0, (x.rows.getD 4 []).getD 0 0','⟨(x.rows.getD 4 []).getD 0 0, (x.rows.getD 3 []).getD 0 0','C80','rotation components swapped')
M('late-start',F,'start','⟨Geom.transformPointcloud T0 src, damp, T0, none⟩','⟨src, damp, T0, none⟩','C80','initial transform not applied to the source')
M('late-mul',F,'gradStep','R.mul s.T','s.T.mul R','C80','composed in the wrong order')
M('late-sqerr',F,'sqErr','r.getD 0 0 * r.getD 0 0','|r.getD 0 0|','C77','sum of absolute residuals')
F='Data/Item.lean'
M('late-icl5000',F,'iclGetItem','5000','1000','C69','ICL depth scale')
