T='Icp/DownTable.lean'
M('dt-grid',T,'gridTable','(t.filter fun r => r.h % ds = 0).filter fun r => r.w % ds = 0','t.filter fun r => r.h % ds = 0','C115','column not tested')
M('dt-grid2',T,'gridTable','r.h % ds = 0).filter fun r => r.w % ds = 0','(r.h + r.w) % ds = 0).filter fun _ => true','C115','sum of row and column tested')
M('dt-grid3',T,'gridTable','r.h % ds = 0).filter','r.h % ds = 0 ∧ 0 ≤ r.h).filter','C115','negative rows dropped')
M('dt-gather',T,'gatherTable','if (List.range B).any fun (b : Nat) =>','if 0 < B ∧ (List.range (B - 1)).any fun (b : Nat) =>','C115','last cloud not checked')
M('dt-gather2',T,'gatherTable','(wrap (l.getD b ⟨[], 0⟩).rows.length r.n).isNone','(wrap (maxL (sizes l)) r.n).isNone','C115','size of the longest cloud')
M('dt-gather3',T,'gatherTable','⟨(t.filter fun r => r.b = (b : Int)).filterMap','⟨(t.filter fun r => wrap B r.b = some b).filterMap','C115','negative batch indices count from the end')
M('dt-gather4',T,'gatherTable','⟨(t.filter fun r => r.b = (b : Int)).filterMap','⟨(t.filter fun r => r.b = (b : Int)).reverse.filterMap','C115','order reversed')
M('dt-gather5',T,'gatherTable','      (l.getD b ⟨[], 0⟩).rows.getD n []','      (l.getD 0 ⟨[], 0⟩).rows.getD n []','C115','first cloud read')
M('dt-gather6',T,'gatherTable','⟨(t.filter fun r => r.b = (b : Int)).filterMap','⟨(t.filter fun r => r.b = (b : Int)).dedup.filterMap','C115','repeated rows removed')
M('dt-opt',T,'gatherTableOpt','| .ok l => .ok (some l)','| .ok _ => .ok none','C115','normals and colours dropped')
M('dt-ds',T,'downsampleTable','if ds = 0 ∧ t ≠ [] then (.error .runtimeError, pc)','if ds ≤ 0 ∧ t ≠ [] then (.error .runtimeError, pc)','C115','negative ratios refused')
M('dt-ds2',T,'downsampleTable','dsMapArg P Nn C','dsMapArg P C Nn','C115','normals and colours exchanged')
M('dt-ds3',T,'downsampleTable','let t := gridTable ds t','let t := t','C115','grid ignored')
M('dt-ds4',T,'downsampleTable','let (c, pc) := getList .colors pc','let (c, pc) := getList .features pc','C115','features in place of colours')
