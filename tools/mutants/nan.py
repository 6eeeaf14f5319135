F='Nan/Model.lean'
M('na-valid',F,'valid','A.lt A.zero (f.depth h w)','!A.isZero (f.depth h w)','C101','valid means different from zero: NaN pixels enter the map')
M('na-valid2',F,'valid','A.lt A.zero (f.depth h w)','!A.lt (f.depth h w) A.zero','C101','valid means not negative')
M('na-where',F,'vertex','vmul A (vmul A (mulVec A f.kinv (f.pix h w)) (f.depth h w)) (num A (valid A f h w))','if valid A f h w then vmul A (mulVec A f.kinv (f.pix h w)) (f.depth h w) else ⟨A.zero, A.zero, A.zero⟩','C101','masking by selection instead of multiplication: NaN depth gives a zero vertex')
M('na-nomask',F,'vertex','vmul A (vmul A (mulVec A f.kinv (f.pix h w)) (f.depth h w)) (num A (valid A f h w))','vmul A (mulVec A f.kinv (f.pix h w)) (f.depth h w)','C101','vertex map not masked')
M('na-pix',F,'vertex','(f.pix h w)','(f.pix w h)','C101','row and column of the pixel swapped')
M('na-depth',F,'vertex','(f.depth h w)) (num','(f.depth h (w + 1))) (num','C101','depth of the next pixel')
M('na-gpose',F,'gvertex','vmul A (vadd A (mulVec A R (vertex A f h w)) t) (num A (valid A f h w))','vmul A (vadd A (mulVec A R (vertex A f h w)) t) (num A (valid A f h (w + 1)))','C101','global vertices masked with the next pixel')
M('na-gnomask',F,'gvertex','vmul A (vadd A (mulVec A R (vertex A f h w)) t) (num A (valid A f h w))','vadd A (mulVec A R (vertex A f h w)) t','C101','global vertices not masked')
M('na-fwd',F,'fwdIx','if i = n - 1 then n - 2 else i','i','C101','no border rule')
M('na-fwd2',F,'fwdIx','if i = n - 1 then n - 2 else i','if i = n - 1 then 0 else i','C101','last position repeats the first')
M('na-dh',F,'dhoriz','(fwdIx f.W w + 1)','(fwdIx f.W w + 2)','C101','difference over two pixels')
M('na-dv',F,'dverti','vertex A f (fwdIx f.H h + 1) w','vertex A f (fwdIx f.H h + 1) (fwdIx f.H h)','C101','vertical difference leaves its column')
M('na-nmask',F,'normal','(num A (valid A f h w))','(num A true)','C101','normals not masked')
M('na-nnorm',F,'normal','if A.isZero r then A.one else r','r','C101','no guard against zero normals')
M('na-gn',F,'gnormal','mulVec A R (normal A f h w)','normal A f h w','C101','normals not rotated')
M('na-pixels',F,'pixels','(List.range f.W).map','(List.range (f.W - 1)).map','C101','last column missing')
M('na-cloud',F,'cloud','((pixels f).filter fun x => valid A f x.1 x.2).map','(pixels f).map','C101','missing depths are not filtered')
M('na-meas',F,'measured','⟨gvertex A f x.1 x.2, gnormal','⟨vertex A f x.1 x.2, gnormal','C101','local coordinates in the map')
M('na-active',F,'active','if A.lt A.zero q.z then proj q else none','if A.lt q.z A.zero then none else proj q','C101','points that are not behind the camera count as visible')
M('na-sim',F,'similar','A.lt (A.norm (vsub A (gvertex A f x.1 x.2) m.p)) dth &&','!A.lt dth (A.norm (vsub A (gvertex A f x.1 x.2) m.p)) &&','C101','distance test by negated comparison: NaN matches')
M('na-sim2',F,'similar','&& A.lt nth (dot A (gnormal A f x.1 x.2) m.n)','&& !A.lt (dot A (gnormal A f x.1 x.2) m.n) nth','C101','angle test by negated comparison')
M('na-sim3',F,'similar','&& A.lt nth (dot A (gnormal A f x.1 x.2) m.n)','','C101','no angle test: NaN normals merge')
M('na-sim4',F,'similar','A.lt (A.norm (vsub A (gvertex A f x.1 x.2) m.p)) dth && A','A','C101','no distance test')
M('na-cand',F,'candidates','if similar A f dth nth m x then','if similar A f dth nth m x || true then','C101','no similarity test')
M('na-merge',F,'merge','A.add m.cc q.cc','q.cc','C101','confidence replaced')
M('na-merge2',F,'merge','(vadd A (vsm A m.cc a) (vsm A q.cc b))','(vsm A q.cc b)','C101','old position dropped')
M('na-merge3',F,'merge','⟨avg m.p q.p, avg m.n q.n,','⟨avg m.p q.p, avg m.p q.n,','C101','normals averaged with positions')
M('na-fuse',F,'fuse','valid A f x.1 x.2 && !rows.any','!rows.any','C101','pixels without depth appended')
M('na-fuse2',F,'fuse','valid A f x.1 x.2 && !rows.any fun r => r.2 = x','valid A f x.1 x.2','C101','matched pixels appended as well')
M('na-fuse3',F,'fuse','valid A f x.1 x.2 && !rows.any fun r => r.2 = x','valid A f x.1 x.2 && rows.isEmpty','C101','nothing appended when something matched')
M('na-fuse4',F,'fuse','merged ++ (','(if rows = [] then map else merged.take 0) ++ (','C101','map dropped when something matched')
M('na-fuse5',F,'fuse','let merged := if rows = [] then map else','let merged := if rows ≠ [] then map else','C101','merge skipped when something matched')
M('na-b',F,'entryB','(A.mul n.z (A.sub d.z s.z))','(A.mul n.z (A.sub d.y s.z))','C102','wrong component in the residual')
M('na-b2',F,'entryB','A.add (A.add (A.mul n.x (A.sub d.x s.x)) (A.mul n.y (A.sub d.y s.y))) (A.mul n.z (A.sub d.z s.z))','A.add (A.mul n.x (A.sub d.x s.x)) (A.mul n.y (A.sub d.y s.y))','C102','third component left out of the residual')
M('na-rowA',F,'rowA','A.sub (A.mul n.z s.y) (A.mul n.y s.z)','A.sub (A.mul n.y s.z) (A.mul n.z s.y)','C102','sign in the Jacobian')
M('na-pairs',F,'pairs','A.lt (tl.knn tgt s).1 t','!A.lt t (tl.knn tgt s).1','C102','distance filter by negated comparison')
M('na-gn1',F,'gaussNewton','ps.map fun x => entryB A x.1 (tgt.getD x.2 ⟨A.zero, A.zero, A.zero⟩)','ps.map fun x => entryB A x.1 (tgt.getD 0 ⟨A.zero, A.zero, A.zero⟩)','C102','always the first target')
M('na-err',F,'sqErr','A.sum (b.map fun x => A.mul x x)','A.sum ((b.drop 1).map fun x => A.mul x x)','C102','first residual left out of the error')
M('na-hat',F,'hat','⟨w.z, A.zero, A.neg w.x⟩','⟨A.neg w.z, A.zero, A.neg w.x⟩','C102','hat not antisymmetric')
M('na-exp',F,'se3Exp','(A.div (A.sin th) th)','(A.sin th)','C102','sine not divided by the angle')
M('na-exp2',F,'se3Exp','let R := if A.lt th eps then small\n    else','let R := if !A.lt eps th then small\n    else','C102','small-angle test negated (same over the reals except at eps)')
M('na-exp3',F,'se3Exp','mulVec A V v','v','C102','translation without V')
M('na-tr',F,'transform','vadd A (mulVec A T.R p) T.t','mulVec A T.R p','C102','translation forgotten')
M('na-mm',F,'mm','⟨dot4 A r r3 Y.R.c0 Y.b.x,','⟨dot4 A r r3 Y.R.c1 Y.b.x,','C102','wrong column')
M('na-acc',F,'icpStep','if A.lt newErr err then','if !A.lt err newErr then','C102','steps accepted unless the error grew: NaN is accepted')
M('na-acc2',F,'icpStep','if A.lt newErr err then','if A.lt err newErr then','C102','worse steps accepted')
M('na-mmord',F,'icpStep','mm A (se3Exp A eps xi.1 xi.2) s.T','mm A s.T (se3Exp A eps xi.1 xi.2)','C102','wrong order of composition')
M('na-look',F,'lookahead','.ok (xi, sqErr A b, sqErr A b\', one)','.ok (xi, sqErr A b\', sqErr A b, one)','C102','errors swapped')
M('na-look2',F,'lookahead','transform A (se3Exp A eps xi.1 xi.2) s.src\n','s.src\n','C102','look-ahead without the step')
M('na-clamp',F,'gradStep','A.clamp (A.sub newErr err) (A.neg g.seventy) g.seventy','(if A.lt (A.sub newErr err) g.seventy then A.clamp (A.sub newErr err) (A.neg g.seventy) g.seventy else g.seventy)','C102','clamping by comparison: NaN becomes 70')
M('na-sig',F,'gradStep','let R := se3Exp A eps (vsm A sig xi.1) (vsm A sig xi.2)','let R := se3Exp A eps xi.1 xi.2','C102','gate not applied')
M('na-sig2',F,'gradStep','let R := se3Exp A eps (vsm A sig xi.1) (vsm A sig xi.2)','let R := se3Exp A eps (vsm A sig xi.1) xi.2','C102','gate applied to the translation only')
M('na-gmm',F,'gradStep','mm A R s.T','s.T','C102','transform not updated')
M('na-iter',F,'iterate','| .ok s => iterate step n s','| .ok s => .ok s','C102','a single iteration')
M('na-reg',F,'register','⟨transform A T0 src, damp, T0⟩','⟨transform A T0 src, damp, ⟨eye A, ⟨A.zero, A.zero, A.zero⟩, ⟨A.zero, A.zero, A.zero⟩, A.one⟩⟩','C102','initial transform not part of the result')
M('na-reg2',F,'register','⟨transform A T0 src, damp, T0⟩','⟨src, damp, T0⟩','C102','initial transform not applied')
M('na-comp',F,'compose','vadd A (mulVec A T.R P.t) T.t','T.t','C102','previous position dropped')
M('na-comp2',F,'compose','mmul A T.R P.R','T.R','C102','previous orientation dropped')
