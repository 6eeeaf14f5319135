D='Dtype/Model.lean'
M('r3-dexp',D,'expm','prod T y y','pure x','C105','se3_exp keeps integer dtypes')
M('r3-dagg',D,'aggregate','⟨v, n, f.rgb, none⟩','⟨v, n, v, none⟩','C105','colours take the dtype of the points')
M('r3-dagg2',D,'aggregate','⟨v, n, f.rgb, none⟩','⟨v, v, f.rgb, none⟩','C105','normals take the dtype of the points')
R='IcpRaw/Model.lean'
M('r3-run',R,'run','finish (loop f numiters.toNat ⟨l, damp, matOf T0, .none⟩)','finish (loop f numiters.toNat ⟨l, damp, M4.one, .none⟩)','C111','the initial transform is not composed')
M('r3-run2',R,'run','finish (loop f numiters.toNat','finish (loop f (numiters.toNat + 1)','C111','one iteration too many')
M('r3-icp',R,'icp','run (icpStep eps nn tgt nrm th) s T n damp','run (icpStep eps nn nrm tgt th) s T n damp','C111','targets and normals swapped')
M('r3-icp2',R,'icp','run (icpStep eps nn tgt nrm th) s T n damp','run (icpStep eps nn tgt nrm .none) s T n damp','C111','threshold not passed on')
M('r3-mat',R,'matOf','⟨t.get [3, 0], t.get [3, 1], t.get [3, 2]⟩, ⟨t.get [0, 3], t.get [1, 3], t.get [2, 3]⟩','⟨t.get [0, 3], t.get [1, 3], t.get [2, 3]⟩, ⟨t.get [3, 0], t.get [3, 1], t.get [3, 2]⟩','C111','the translation is read from the last row')
M('r3-mat2',R,'matOf','⟨t.get [0, 0], t.get [1, 0], t.get [2, 0]⟩','⟨t.get [0, 0], t.get [0, 1], t.get [0, 2]⟩','C111','first row read from the first column')
M('r3-dsp','Mem/Map.lean','dsPoints','if B = 0 then .ok []','if B ≤ 1 then .ok []','C81','one empty cloud accepted')
M('r3-dsp2','Mem/Map.lean','dsPoints','Icp.gather B l rows','Icp.gather B l []','C81','no point picked')
S='Slam/Order.lean'
M('r3-feed2',S,'feed','.ok (m, T :: Ts)','.ok (res, T :: Ts)','C97','the first map is returned')
N='Nd/Model.lean'
M('r3-exp',N,'expand','t.unsqueeze t.rank','t.unsqueeze 0','C108','dimensions added at the end')
M('r3-exp2',N,'expand','  | m + 1, t => expand m (t.unsqueeze t.rank)','  | _ + 1, t => t.unsqueeze t.rank','C108','one dimension added')
G='Rgbd/Shapes.lean'
M('r3-chk',G,'checkArgs','  match checkRanks rgb depth K poses with\n  | .error e => .error e\n  | .ok () => ','  ','C104','ranks not checked')
M('r3-chk2',G,'checkArgs','  | .ok () => checkShapes cf rgb depth K poses pix','  | .ok () => checkShapes cf rgb depth K poses none','C104','shape of the positions not checked')
L='Nan/Link.lean'
M('r3-rt',L,'realTools','⟨M, 6⟩','⟨M, 5⟩','C102','wrong width of the system')
M('r3-feed',S,'feed',"feed S res (some live') fs","feed S res prev fs",'C97','the previous frame is never advanced')
