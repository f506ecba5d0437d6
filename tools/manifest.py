#!/usr/bin/env python3
"""Regenerate MANIFEST.json: statuses by hand, theorem names taken from lean/Verif/Props by prefix."""
import json, re, glob
NOTES = {
 'C09': ('partial', 'False as stated: sanitize_name keeps PDF delimiters such as ( and /, see C09_counterexample; proved for names without delimiters.'),
 'C10': ('partial', 'False as stated: %g switches to exponent notation from 999999.5 up and below 0.0001; C10_valid_iff gives the exact range, C10_counterexample a witness.'),
 'C18': ('partial', 'False as stated: Symbol/ZapfDingbats in two weights are listed twice under one key; proved otherwise.'),
}
names = {}
for f in sorted(glob.glob('/verif/lean/Verif/Props/*.lean')):
    for m in re.finditer(r'^theorem (C(\d\d+)_\w+)', open(f).read(), re.M):
        names.setdefault('C' + m.group(2), []).append('Pdfje.' + m.group(1))
try:
    exec(open('/verif/tools/notes.py').read())
except FileNotFoundError:
    pass
claims = []
for l in open('/verif/properties.jsonl'):
    i = json.loads(l)['id']
    if i in names:
        ths = names[i]
        st, note = NOTES.get(i, ('proved', ''))
        if st == 'proved' and any('_partial' in t for t in ths): print('CHECK', i, ths)
        claims.append({'property': i, 'status': st, 'theorems': ths, 'note': note})
json.dump({'claims': claims}, open('/verif/MANIFEST.json', 'w'), indent=1)
print(len(claims), 'claims')
