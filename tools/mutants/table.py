T='Fusion/Table.lean'
M('tb-wrap',T,'wrap','else if -n ≤ i then some (i + n).toNat else none','else none','C114','negative entries refused')
M('tb-wrap2',T,'wrap','else if -n ≤ i then','else if -n < i then','C114','-n is out of range')
M('tb-wrap3',T,'wrap','if i < n then some i.toNat','if i ≤ n then some i.toNat','C114','n accepted')
M('tb-wrap4',T,'wrap','some (i + n).toNat else none','some (-i).toNat else none','C114','negative entries mirrored')
M('tb-row',T,'resolveRow','some b, some n, some h, some w => some ⟨b, n, h, w⟩','some b, some n, some h, some w => some ⟨b, n, w, h⟩','C114','row and column exchanged')
M('tb-row2',T,'resolveRow','wrap N r.n, wrap fr.H r.h, wrap fr.W r.w','wrap N r.n, wrap fr.W r.h, wrap fr.H r.w','C114','image size transposed')
M('tb-res',T,'resolve','    | some q, some qs => some (q :: qs)','    | some q, some qs => some (qs ++ [q])','C114','table reversed')
M('tb-res2',T,'resolve','    | some q, some qs => some (q :: qs)\n    | _, _ => none','    | some q, some qs => some (q :: qs)\n    | none, some qs => some qs\n    | _, _ => none','C114','rows out of range skipped')
M('tb-fuse',T,'fuseTable','(shape3 (p.getD [])).1 (shape3 (p.getD [])).2.1 fr t','(shape3 (p.getD [])).2.1 (shape3 (p.getD [])).1 fr t','C114','sizes of batch and cloud exchanged')
M('tb-fuse2',T,'fuseTable','| none => (.error (.pcs .indexError), pc)','| none => fuseWithMap al pc fr [] inplace','C114','bad tables ignored')
M('tb-fuse3',T,'fuseTable','| some rows => fuseWithMap al pc fr rows inplace','| some rows => fuseWithMap al pc fr rows.dedup inplace','C114','identical rows removed first (harmless)')
M('tb-fuse4',T,'fuseTable','| some rows => fuseWithMap al pc fr rows inplace','| some rows => fuseWithMap al pc fr rows.reverse inplace','C114','first row wins')
U='Fusion/Table2.lean'
M('tb-sim',U,'similarTable','(.ok (((t.zip mask).filter (·.2)).map (·.1), mask), pc)','(.ok (t, mask), pc)','C114','table not filtered')
M('tb-sim2',U,'similarTable','distTh dotTh r.b r.n\n              (.ok','dotTh distTh r.b r.n\n              (.ok','C114','thresholds exchanged')
M('tb-sim3',U,'similarTable','| none => (.error (.pcs .indexError), pc)','| none => (.ok ([], []), pc)','C114','bad tables give an empty result')
M('tb-key',U,'keyOf','⟨f32 i.b, f32 i.h, f32 i.w,','⟨(r.b : Int), (r.h : Int), (r.w : Int),','C114','keys normalised (a repair: best_twice is false)')
M('tb-key2',U,'keyOf','.normSq, f32 i.n⟩','.normSq, f32 i.b⟩','C114','the point index is lost')
M('tb-key3',U,'keyOf','1 / ((cell f r.b r.n).getD 0 0 + 1 / 10 ^ 20)','(cell f r.b r.n).getD 0 0','C114','lowest confidence wins')
M('tb-keep',U,'keepFirst','if k.b = j.b ∧ k.h = j.h ∧ k.w = j.w then','if k.h = j.h ∧ k.w = j.w then','C114','batches confused')
M('tb-best',U,'bestRows','fun k => ⟨k.b, k.n, k.h, k.w⟩\nend','fun k => ⟨k.b, k.n, k.w, k.h⟩\nend','C114','row and column exchanged')
M('tb-f32',U,'f32','else -(Fusion.f32 i.natAbs : Int)','else (Fusion.f32 i.natAbs : Int)','C114','sign lost')
M('tb-best2',U,'bestTable','if fr.L ≠ 1 then (.error valueError, pc)','if fr.L = 0 then (.error valueError, pc)','C114','sequence length not checked (the theorems speak about length 1)')
D='Fusion/Model.lean'
M('tb-last',D,'lastAt','rows.reverse.find?','rows.find?','C114 C35 C37','first row wins')
M('tb-newm',D,'newMask','rows.any fun r => r.b = b ∧ r.h = h ∧ r.w = w','rows.any fun r => r.b = b ∧ r.h = h','C114','whole rows of pixels skipped')
