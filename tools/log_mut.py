#!/usr/bin/env python3
"""Append the results of mutate.py to seeded/LOG.jsonl.

usage: log_mut.py results.jsonl [notes.json]   notes: {"<line number from 0>": {"tightened": [...], "failed": [...], "note": "..."}}
"""
import json, sys
notes = json.load(open(sys.argv[2])) if len(sys.argv) > 2 else {}
with open('/verif/seeded/LOG.jsonl', 'a') as out:
    for k, line in enumerate(open(sys.argv[1])):
        r = json.loads(line)
        n = notes.get(str(k), {})
        if 'error' in r or n.get('drop'):
            continue
        out.write(json.dumps({
            'definition': r['file'] + ': ' + r['definition'], 'edit': {k: r[k] for k in ('old', 'new', 'also') if k in r},
            'breaks': n.get('breaks', r['breaks']), 'build_failed': not r['ok'],
            'theorems_failed': n.get('failed', r['failed']), 'theorems_tightened': n.get('tightened', []),
            'note': n.get('note', '')}, ensure_ascii=False) + '\n')
