#!/usr/bin/env python3
"""Generates MANIFEST.json from the table below."""
import json, os
props=[json.loads(l) for l in open('/verif/properties.jsonl')]
S='NS.Props.Sparse.'
M={
'C01':('proved',[S+'C01_at_returns_last_set',S+'C01_linear_at'],''),
'C02':('proved',[S+'C02_stores_exactly_nonzeros'],''),
'C03':('proved',[S+'C03_iteration'],''),
'C04':('proved',[S+'C04_row_iteration'],''),
'C05':('partial',[S+'C05_column_iteration_partial',S+'C05_fails_on_empty_column',S+'C05_witness'],'The full claim is false of the code: column_begin(c) aborts when column c of a non-zero matrix is empty (proved). Proved for columns with an entry and for zero matrices.'),
'C06':('partial',[S+'C06_erase_content',S+'C06_set_iterator',S+'C06_erase_successor_partial',S+'C06_erase_returns_wrong_iterator'],'Contents proved in full; the returned iterator is wrong in some cases (witness), the exact condition is proved.'),
'C07':('proved',[S+'C07_add_sub',S+'C07_add_no_zero_stored'],''),
'C08':('partial',[S+'C08_hadamard_partial',S+'C08_full_rows_partial',S+'C08_hadamard_wrong'],'The full claim is false of the code (witness); proved when every erased entry has a later entry in its row, or only zero rows below, or its row keeps an entry and the next row is not zero; in particular when no row of the product is zero.'),
'C09':('proved',[S+'C09_scale',S+'C09_neg'],''),
'C10':('proved',[S+'C10_transpose',S+'C10_conjugate_adjugate'],''),
'C11':('proved',[S+'C11_mul'],''),
'C12':('proved',[S+'C12_mul_vector'],''),
'C13':('proved',[S+'C13_equality'],''),
'C14':('partial',[S+'C14_sum_trace',S+'C14_max_partial',S+'C14_min',S+'C14_max_wrong'],'max() starts at numeric_limits<T>::min(), which is positive for floating types: false there (proved); proved for start values that are lower bounds.'),
'C15':('partial',[S+'C15_swap_partial',S+'C15_swap_wrong'],'swap does not exchange the column count: false for different column counts (proved), proved for equal ones.'),
'C16':('partial',[S+'C16_out_of_range'],'Sparse part.'),
'C17':('proved',[S+'C17_initializer_list'],''),
}
exec(open('/verif/tools/manifest_more.py').read()) if os.path.exists('/verif/tools/manifest_more.py') else None
claims=[]
for p in props:
    st,th,n=M.get(p['id'],('partial',[],'Not yet modelled.'))
    claims.append(dict(property=p['id'],status=st,theorems=th,note=n))
json.dump({'claims':claims},open('/verif/MANIFEST.json','w'),indent=1)
