G='Nd/Model.lean'
M('nd-homo2',G,'projectPoints','(if cam.dims.head? = some 3 then homogenizePoints cam else .ok cam)','(if cam.dims.head? = some 3 then (.ok cam) else homogenizePoints cam)','C108','homogenises the wrong points')
M('nd-pad2',G,'padOne','if k < d then t.get (k :: is) else 1','if k ≤ d then t.get (k :: is) else 1','C108','the padding reads beyond the point')
M('nd-bcast2',G,'bc','if a = b ∨ a = 1 ∨ b = 1 then','if a = b ∨ a = 1 then','C108','only the first argument is broadcast')
M('nd-bidx2',G,'bidx','(if d = 1 then 0 else i) :: bidx s is','i :: bidx s is','C108','a broadcast tensor is read out of range')
R='IcpRaw/Model.lean'
M('ir-damp0',R,'solve','if d.rank ≠ 0 then .error .valueError else solveT A b (d.get [])','solveT A b (d.get [])','C111','rank of damp not checked')
M('ir-dampint',R,'solve','| .float x => solveT A b x','| .float x => solveT A b x\n      | .int n => solveT A b n','C111','int damping accepted')
M('ir-bcol',R,'solveT','  else if b.dims[0]? ≠ some 1 then .error .valueError\n','','C111','b with several columns accepted')
M('ir-brow',R,'solveT','  else if A.dims[1]? ≠ b.dims[1]? then .error .valueError\n','','C111','number of rows not compared (the model underneath still raises)')
M('ir-arank',R,'solveT','  if A.rank ≠ 2 then .error .valueError\n  else if b.rank','  if b.rank','C111','rank of A not checked')
M('ir-t2',R,'toT2','t.get [c, r]','t.get [r, c]','C111','the matrix is transposed')
M('ir-th',R,'Arg.thresh?','| .none => some .none\n','','C111','None refused as a threshold')
M('ir-srank',R,'gaussT','  if s.rank ≠ 3 then .error .valueError\n  else if t.rank','  if t.rank','C111','rank of the source not checked')
M('ir-sbatch',R,'gaussT','  else if s.dims[2]? ≠ some 1 then .error .valueError\n','','C111','batches of sources accepted by gauss_newton_solve')
M('ir-tbatch',R,'gaussT','  else if t.dims[2]? ≠ some 1 then .error .valueError\n','','C111','batches of targets accepted')
M('ir-nbatch',R,'gaussT','  else if m.dims[2]? ≠ some 1 then .error .valueError\n','','C111','batches of normals accepted')
M('ir-tn',R,'gaussT','  else if t.dims[1]? ≠ m.dims[1]? then .error .valueError\n','','C111','numbers of points and normals not compared here (the model underneath still raises ValueError)')
M('ir-s3',R,'gaussT','  else if s.dims[0]? ≠ some 3 then .error .valueError\n','','C111','source points need not have three coordinates')
M('ir-t3',R,'gaussT','  else if t.dims[0]? ≠ some 3 then .error .valueError\n','','C111','target points need not have three coordinates')
M('ir-n3',R,'gaussT','  else if m.dims[0]? ≠ some 3 then .error .valueError\n','','C111','normals need not have three coordinates')
M('ir-swap',R,'gauss','| some th => gaussT nn th s t m','| some th => gaussT nn th t s m','C111','source and target swapped')
M('ir-first',R,'first','fun i => t.get (i ++ [0])','fun i => t.get (i ++ [t.dims.getLast?.getD 1 - 1])','C111','the last cloud of a batch instead of the first')
M('ir-firstempty',R,'first','  | some 0 => .error .indexError\n','','C111','empty batches accepted')
M('ir-mat',R,'matOf','⟨t.get [3, 0], t.get [3, 1], t.get [3, 2]⟩, ⟨t.get [0, 3], t.get [1, 3], t.get [2, 3]⟩','⟨t.get [0, 3], t.get [1, 3], t.get [2, 3]⟩, ⟨t.get [3, 0], t.get [3, 1], t.get [3, 2]⟩','C111','the translation is read from the last row')
M('ir-tc',R,'transformCloud','  if p.rank ≠ 2 then .error .valueError\n  else if','  if','C111','rank of the cloud not checked')
M('ir-tc3',R,'transformCloud','  else if p.dims[0]? ≠ some 3 then .error .valueError\n','','C111','clouds with any number of coordinates accepted')
M('ir-one',R,'lookahead','match gauss nn (.tensor (ofCloud one)) tgt nrm th with','match gauss nn (.tensor (ofCloud s.src)) tgt nrm th with','C111','the look-ahead evaluates the old cloud')
M('ir-acc',R,'icpStep','if newErr < err then','if newErr ≤ err then','C111','steps without gain accepted')
M('ir-unb',R,'finish','| .none => .error .unboundLocalError','| .none => .ok (s.T, [])','C111','zero iterations answer')
M('ir-numit',R,'common','| .int n => .ok (s, T0, n)','| .int n => .ok (s, T0, n)\n          | .float _ => .ok (s, T0, 1)','C111','float numiters accepted')
M('ir-t0type',R,'common','| .none => some .none\n          | _ => .none :','| _ => some .none :','C111','an initial transform of any type is taken for None')
M('ir-none',R,'checkT0','| .none => .error .attributeError','| .none => .ok ⟨[4, 4], fun i => if i.getD 0 0 = i.getD 1 0 then 1 else 0⟩','C111','the documented default works (a repair)')
M('ir-t0',R,'checkT0','T.dims[1]? = some 4 ∧ T.dims[0]? = some 4','T.dims[1]? = some 4 ∨ T.dims[0]? = some 4','C111','(3, 4) initial transforms accepted')
M('ir-nu',R,'gradStep','    if nu = 0 then .error .zeroDivisionError\n    else\n','','C111','nu = 0 does not raise')
M('ir-lm',R,'gradIcp','        if lmax = 0 then .error .zeroDivisionError\n        else run','        run','C111','lambda_max = 0 does not raise')
M('ir-bb2',R,'gradIcp','run (gradStep eps lmax B B2 nu','run (gradStep eps lmax B2 B nu','C111','B and B2 swapped')
M('ir-sw',R,'gradStep','Icp.stepWeight B2 nu e','Icp.stepWeight B2 nu (-e)','C111','sign of the error change')
